import Verif.Node.EntryWire
import Verif.Props.Peer
/-
C62: log entries survive the way over the network and configurations the way through a file.

`pack withData l` is the request a leader sends for the entries `l`, `unpack prev metas attachment` what the follower hands to
its log manager for a request whose previous index is `prev`.
-/
set_option linter.unusedVariables false

namespace Braft.Wire
open Braft.Text

/-- A peer whose address is IPv4 and whose port and index are 32 bit numbers. -/
def PeerOk (p : PeerId) : Prop :=
  p.ip < 2 ^ 32 ∧ (-(2 ^ 31) ≤ p.port ∧ p.port < 2 ^ 31) ∧ (-(2 ^ 31) ≤ p.idx ∧ p.idx < 2 ^ 31)

theorem toPeer_print {p : PeerId} (h : PeerOk p) : toPeer (printPeer p) = p := by
  unfold toPeer
  rw [Props.C38_peer_round_trip p h.1 h.2.1 h.2.2]

theorem map_toPeer {l : List PeerId} (h : ∀ p ∈ l, PeerOk p) : (l.map printPeer).map toPeer = l := by
  rw [List.map_map]
  conv => rhs; rw [← List.map_id l]
  apply List.map_congr_left
  intro p hp
  exact toPeer_print (h p hp)

theorem unvarint (n : Nat) (r : Bytes) : readVarint (varint n ++ r) = some (n, r) := by
  induction n using Nat.strongRecOn with
  | ind n ih =>
    rw [varint]
    split
    · rename_i h; simp [readVarint, h]
    · rename_i h
      simp only [List.cons_append, readVarint]
      rw [if_neg (by omega), ih (n / 128) (by omega)]
      simp only [Option.some.injEq, Prod.mk.injEq, and_true]
      omega

theorem map_char (s : List Char) : (s.map Char.toNat).map Char.ofNat = s := by
  rw [List.map_map]
  conv => rhs; rw [← List.map_id s]
  apply List.map_congr_left
  intro c _
  exact Char.ofNat_toNat c

theorem decode_field (tag : Nat) (s : List Char) (r : Bytes) (m : PbMeta) :
    PbMeta.decode (field tag s ++ r) m =
      if tag = 10 then PbMeta.decode r ⟨m.peers ++ [s], m.old⟩
      else if tag = 18 then PbMeta.decode r ⟨m.peers, m.old ++ [s]⟩ else none := by
  have hv : readVarint (varint s.length ++ (s.map Char.toNat ++ r)) = some (s.length, s.map Char.toNat ++ r) := unvarint _ _
  have h1 : ((s.map Char.toNat ++ r).take s.length).map Char.ofNat = s := by
    rw [List.take_append_of_le_length (by simp), List.take_of_length_le (by simp)]; exact map_char s
  have h2 : (s.map Char.toNat ++ r).drop s.length = r := by
    rw [List.drop_append_of_le_length (by simp), List.drop_of_length_le (by simp), List.nil_append]
  have h3 : field tag s ++ r = tag :: (varint s.length ++ (s.map Char.toNat ++ r)) := by simp [field]
  rw [h3, PbMeta.decode]
  split
  · rename_i hn; rw [hv] at hn; simp at hn
  · rename_i n t hn
    rw [hv] at hn
    simp only [Option.some.injEq, Prod.mk.injEq] at hn
    obtain ⟨rfl, rfl⟩ := hn
    rw [if_neg (by simp), h1, h2]

theorem decode_old (l : List (List Char)) (m : PbMeta) :
    PbMeta.decode (l.flatMap (field 18)) m = some ⟨m.peers, m.old ++ l⟩ := by
  induction l generalizing m with
  | nil => simp [PbMeta.decode]
  | cons s l ih =>
    rw [List.flatMap_cons, decode_field, if_neg (by omega), if_pos rfl, ih]
    simp

theorem decode_peers (l : List (List Char)) (r : Bytes) (m : PbMeta) :
    PbMeta.decode (l.flatMap (field 10) ++ r) m = PbMeta.decode r ⟨m.peers ++ l, m.old⟩ := by
  induction l generalizing m with
  | nil => simp
  | cons s l ih =>
    rw [List.flatMap_cons, List.append_assoc, decode_field, if_pos rfl, ih]
    simp

/-- What entries are in a log: numbered from `prev + 1`, of a known type; configurations have peers, other entries have
none; no empty list of old peers. -/
structure Sendable (prev : Nat) (l : List Entry) : Prop where
  idx : ∀ k (h : k < l.length), (l[k]).index = prev + 1 + k
  known : ∀ e ∈ l, e.type ≠ .unknown
  peers : ∀ e ∈ l, ∀ ps, e.peers = some ps → ps ≠ [] ∧ ∀ p ∈ ps, PeerOk p
  old : ∀ e ∈ l, ∀ ps, e.old = some ps → e.peers ≠ none ∧ ps ≠ [] ∧ ∀ p ∈ ps, PeerOk p
  size : ∀ e ∈ l, e.data.length < 2 ^ 31

theorem texts_eq_nil {o : Option (List PeerId)} (h : ∀ ps, o = some ps → ps ≠ []) : texts o = [] ↔ o = none := by
  cases o with
  | none => simp [texts]
  | some ps => simp [texts, h ps rfl]

theorem back {o : Option (List PeerId)} (h : ∀ ps, o = some ps → ps ≠ [] ∧ ∀ p ∈ ps, PeerOk p) :
    (if texts o = [] then none else some ((texts o).map toPeer)) = o := by
  cases o with
  | none => simp [texts]
  | some ps =>
    obtain ⟨h1, h2⟩ := h ps rfl
    simp only [texts, List.map_eq_nil_iff, h1, if_false, map_toPeer h2]

theorem unpack_pack (withData : Bool) (l : List Entry) : ∀ prev, Sendable prev l →
    unpack prev (pack withData l).1 (pack withData l).2 = l.map (fun e => if withData then e else { e with data := [] }) := by
  induction l with
  | nil => intro prev _; simp [pack, unpack]
  | cons e l ih =>
    intro prev h
    have hs : Sendable (prev + 1) l := by
      refine ⟨?_, fun x hx => h.known x (List.mem_cons_of_mem _ hx), fun x hx => h.peers x (List.mem_cons_of_mem _ hx),
        fun x hx => h.old x (List.mem_cons_of_mem _ hx), fun x hx => h.size x (List.mem_cons_of_mem _ hx)⟩
      intro k hk
      have := h.idx (k + 1) (by simpa using hk)
      rw [List.getElem_cons_succ] at this
      omega
    have hi : e.index = prev + 1 := h.idx 0 (by simp)
    have hp := h.peers e List.mem_cons_self
    have ho := h.old e List.mem_cons_self
    have hz := h.size e List.mem_cons_self
    have hb : (if texts e.peers = [] then none else some ((texts e.peers).map toPeer)) = e.peers := back hp
    have hbo : (if texts e.old = [] then none else some ((texts e.old).map toPeer)) = e.old := back (fun ps hps => (ho ps hps).2)
    have hpn := texts_eq_nil (fun ps hps => (hp ps hps).1)
    have hopt : (if texts e.peers = [] ∨ (if e.peers.isSome then texts e.old else []) = [] then none
        else some ((if e.peers.isSome then texts e.old else []).map toPeer)) = e.old := by
      cases hpe : e.peers with
      | none =>
        rw [hpe] at hpn
        rw [if_pos (Or.inl (hpn.mpr rfl))]
        cases hoe : e.old with
        | none => rfl
        | some ps => exact absurd hpe (ho ps hoe).1
      | some ps =>
        rw [hpe] at hpn
        have : texts (some ps) ≠ [] := fun e => by have := hpn.mp e; simp at this
        simp only [Option.isSome_some, if_true, this, false_or]
        exact hbo
    have hone : readOne (prev + 1) (prepare withData e).1 ((prepare withData e).2 ++ (pack withData l).2) =
        (if withData then e else { e with data := [] }, (pack withData l).2) := by
      cases withData with
      | false =>
        simp only [readOne, prepare, Bool.false_eq_true, if_false, List.nil_append, List.take_zero, List.drop_zero]
        rw [hb, hopt, ← hi]
      | true =>
        have hc : cutLen e.data.length (e.data ++ (pack true l).2).length = e.data.length := by
          unfold cutLen
          rw [List.length_append, Nat.mod_eq_of_lt (by omega), if_pos hz]; omega
        simp only [readOne, prepare, if_true]
        rw [hc, hb, hopt, ← hi, List.take_append_of_le_length (Nat.le_refl _), List.take_of_length_le (Nat.le_refl _),
          List.drop_append_of_le_length (Nat.le_refl _), List.drop_of_length_le (Nat.le_refl _), List.nil_append]
    have hk : (prepare withData e).1.type ≠ .unknown := h.known e List.mem_cons_self
    have hcons : pack withData (e :: l) = ((prepare withData e).1 :: (pack withData l).1, (prepare withData e).2 ++ (pack withData l).2) := by
      simp [pack]
    rw [hcons]
    simp only [unpack]
    rw [if_neg hk, hone, ih _ hs]
    simp

end Braft.Wire

namespace Braft.Props
open Braft.Wire
open Braft.Text

/-- C62. The entries that the follower appends are those that the leader read from its log: same indexes, terms, types,
configurations and data. -/
theorem entries_survive_network (prev : Nat) (l : List Entry) (h : Sendable prev l) :
    unpack prev (pack true l).1 (pack true l).2 = l := by
  rw [unpack_pack true l prev h]
  simp

/-- C62. A witness gets the same entries without data (unless raft_enable_witness_to_leader is set). -/
theorem entries_to_witness (prev : Nat) (l : List Entry) (h : Sendable prev l) :
    unpack prev (pack false l).1 (pack false l).2 = l.map (fun e => { e with data := [] }) := by
  rw [unpack_pack false l prev h]
  simp

/-- C62. A configuration that was stored is the one that is loaded. -/
theorem configuration_survives_storage (e : Entry) (ps : List PeerId) (hp : e.peers = some ps) (hps : ∀ p ∈ ps, PeerOk p)
    (ho : ∀ os, e.old = some os → os ≠ [] ∧ ∀ p ∈ os, PeerOk p) :
    parseConfMeta (serializeConf e) = some (ps, e.old) := by
  have hd : PbMeta.decode (serializeConf e) ⟨[], []⟩ = some ⟨texts e.peers, texts e.old⟩ := by
    unfold serializeConf PbMeta.encode
    rw [decode_peers, decode_old]
    simp
  unfold parseConfMeta
  rw [hd]
  simp only [Option.some.injEq, Prod.mk.injEq]
  exact ⟨by rw [hp]; simp only [texts]; exact map_toPeer hps, back ho⟩

namespace WireEx
def p1 : PeerId := ⟨0x7f000001, 8000, 0, .replica⟩
def p2 : PeerId := ⟨0x7f000001, 8001, 1, .witness⟩
def log : List Entry := [⟨5, 2, .conf, some [p1, p2], some [p1], []⟩, ⟨6, 2, .data, none, none, [1, 2, 3]⟩, ⟨7, 2, .noop, none, none, []⟩,
  ⟨8, 2, .data, none, none, [9]⟩]

theorem sendable : Sendable 4 log := by
  have hok : PeerOk p1 ∧ PeerOk p2 := by unfold PeerOk; decide
  refine ⟨?_, by decide, ?_, ?_, by decide⟩
  · intro k hk
    match k, hk with
    | 0, _ => rfl
    | 1, _ => rfl
    | 2, _ => rfl
    | 3, _ => rfl
  · intro e he ps hps
    simp only [log, List.mem_cons, List.not_mem_nil, or_false] at he
    rcases he with rfl | rfl | rfl | rfl <;> simp at hps
    subst hps
    refine ⟨by simp, ?_⟩
    intro p hp
    simp only [List.mem_cons, List.not_mem_nil, or_false] at hp
    rcases hp with rfl | rfl
    · exact hok.1
    · exact hok.2
  · intro e he ps hps
    simp only [log, List.mem_cons, List.not_mem_nil, or_false] at he
    rcases he with rfl | rfl | rfl | rfl <;> simp at hps
    subst hps
    refine ⟨by simp, by simp, ?_⟩
    intro p hp
    simp only [List.mem_cons, List.not_mem_nil, or_false] at hp
    rcases hp with rfl
    exact hok.1

/-- Non-vacuity: a joint configuration, data, a no-op. -/
example : unpack 4 (pack true log).1 (pack true log).2 = log := entries_survive_network 4 log sendable
end WireEx

/-- A list without data. -/
theorem sendable_noData {prev : Nat} {l : List Entry} (h : Sendable prev l) : Sendable prev (l.map (fun e => { e with data := [] })) := by
  refine ⟨?_, ?_, ?_, ?_, ?_⟩
  · intro k hk
    rw [List.getElem_map]
    exact h.idx k (by simpa using hk)
  all_goals
    intro e he
    obtain ⟨x, hx, rfl⟩ := List.mem_map.1 he
  · exact h.known x hx
  · exact h.peers x hx
  · exact h.old x hx
  · show 0 < 2 ^ 31
    decide

/-- C62, a finding. If a witness leads (a leader accepts to transfer its leadership to one: `transfer_to_witness_accepted`, and
handle_timeout_now_request does not refuse, node.cpp:1092-1152), a peer that had not yet got the entries `l` gets them without
their data, at the same indexes and terms: the state machines differ. -/
theorem witness_leader_loses_data (prev : Nat) (l : List Entry) (h : Sendable prev l) :
    unpack prev (pack true (unpack prev (pack false l).1 (pack false l).2)).1 (pack true (unpack prev (pack false l).1 (pack false l).2)).2 =
      l.map (fun e => { e with data := [] }) := by
  rw [entries_to_witness prev l h, entries_survive_network prev _ (sendable_noData h)]

example : (unpack 4 (pack true (unpack 4 (pack false WireEx.log).1 (pack false WireEx.log).2)).1
    (pack true (unpack 4 (pack false WireEx.log).1 (pack false WireEx.log).2)).2) ≠ WireEx.log := by
  rw [witness_leader_loses_data 4 WireEx.log WireEx.sendable]; decide

/-- C62, outside the assumptions of `Sendable`. An entry of 2^32 bytes: its length is cut to 32 bits, its data is lost and
becomes the data of the next entry. -/
theorem huge_entry_shifts_data (a b : Bytes) (ha : a.length = 2 ^ 32) (hb : b.length < 2 ^ 31) :
    (unpack 0 (pack true [⟨1, 1, .data, none, none, a⟩, ⟨2, 1, .data, none, none, b⟩]).1
      (pack true [⟨1, 1, .data, none, none, a⟩, ⟨2, 1, .data, none, none, b⟩]).2).map (fun e => e.data) = [[], a.take b.length] := by
  simp only [pack, List.map_cons, List.map_nil, List.flatMap_cons, List.flatMap_nil, List.append_nil, prepare, if_true, unpack,
    readOne, reduceCtorEq, if_false, ha, cutLen, List.length_append]
  have h1 : (2 : Nat) ^ 32 % 2 ^ 32 = 0 := by decide
  rw [h1]
  simp only [Nat.zero_min, List.take_zero, List.drop_zero, List.length_append, ha, Nat.mod_eq_of_lt (show b.length < 2 ^ 32 by omega), hb, if_true,
    show (0:Nat) < 2 ^ 31 by decide]
  rw [Nat.min_eq_left (by omega), List.take_append_of_le_length (by omega)]

/-- C62, outside the assumptions: an empty list of old peers is not the same as none, but is loaded as none. -/
theorem empty_old_peers_lost (e : Entry) (ps : List PeerId) (hp : e.peers = some ps) (hps : ∀ p ∈ ps, PeerOk p) (ho : e.old = some []) :
    parseConfMeta (serializeConf e) = some (ps, none) := by
  have : serializeConf e = serializeConf { e with old := none } := by simp [serializeConf, ho, texts]
  rw [this]
  exact configuration_survives_storage { e with old := none } ps hp hps (by intro os hos; simp at hos)

/-- C62, outside the assumptions: a text that is no peer is taken as the empty peer, and the call succeeds. -/
theorem bad_text_is_empty_peer : toPeer "localhost".toList = {} ∧ toPeer "1.2.3.4:80:0:7".toList = {} := by
  constructor <;> decide +kernel

end Braft.Props
