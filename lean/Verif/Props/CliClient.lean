import Verif.CliClient
import Verif.Props.Cli
/-
C86: administration commands and raft messages reach the node they name, with what was asked.
-/
set_option linter.unusedVariables false
set_option linter.unusedSectionVars false

namespace Braft.Props.CliClient
open Braft Braft.CliC Braft.NodeManager Braft.Text
variable {G : Type} [DecidableEq G]

/-- Specification: the fields have the C++ types. -/
def Typed (p : PeerId) : Prop :=
  p.ip < 2 ^ 32 ∧ (-(2 ^ 31) ≤ p.port ∧ p.port < 2 ^ 31) ∧ (-(2 ^ 31) ≤ p.idx ∧ p.idx < 2 ^ 31)

/-- Specification: the same, for the arguments of a command. -/
def TypedCmd : Cmd → Prop
  | .add p => Typed p
  | .remove p => Typed p
  | .change c => Built c ∧ ∀ p ∈ c.peers, Typed p
  | .transfer p => Typed p
  | .reset p c => Typed p ∧ Built c ∧ ∀ p ∈ c.peers, Typed p
  | .snapshot p => Typed p

/-- Specification: the call of a node that a command asks for. -/
inductive Asks : Cmd → Call → Prop
  | add (p) : Asks (.add p) (.add p)
  | remove (p) : Asks (.remove p) (.remove p)
  | change (c) : Asks (.change c) (.change c)
  | transfer (p) : p.isEmpty = false → Asks (.transfer p) (.transfer p)
  | transferAny (p) : p.isEmpty = true → Asks (.transfer p) (.transfer {})
  | reset (p c) : Asks (.reset p c) (.reset c)
  | snapshot (p) : Asks (.snapshot p) .snapshot

/-- Specification: a process is in a state that it can be in: `reg` are the nodes added to it and not removed. Leaders have
the C++ types, and an error is not 0. -/
def Runs (P : Proc G) : Prop :=
  (∃ reg, NM P.maps reg) ∧ (∀ n, Typed (P.leader n)) ∧ ∀ n e, P.listed n = .error e → e ≠ 0

/-- Specification: node `n` of the group is registered in the process. -/
def Hosts (P : Proc G) (n : Node G PeerId) (g : G) : Prop := ∃ reg, NM P.maps reg ∧ n ∈ reg ∧ n.group = g

/-- Specification: the same address and index. -/
def SamePeer (p q : PeerId) : Prop := p.ip = q.ip ∧ p.port = q.port ∧ p.idx = q.idx

theorem fits {p : PeerId} (h : Typed p) : Fits p := by
  obtain ⟨h1, h2, h3⟩ := h
  refine ⟨by omega, ?_, ?_⟩ <;> simp [inInt32] <;> omega

theorem parse_print {p : PeerId} (h : Typed p) : parsePeer (printPeer p) = .ok p := parsePeer_printPeer p (fits h)

theorem key_same {p q : PeerId} (h : p = key q) : SamePeer p q := by subst h; exact ⟨rfl, rfl, rfl⟩

theorem parse_all {c : Configuration} (hb : Built c) (hf : ∀ p ∈ c.peers, Typed p) :
    parseFields (c.peers.map printPeer) {} = .ok c := by
  have hw := hb.wf
  unfold Configuration.WF at hw
  rw [parseFields_print c.peers (fun p hp => fits (hf p hp)) {}, PeerSet.foldl_insert_sorted c.peers _ (by simpa using hw)]
  simp

theorem arg_ok {cmd : Cmd} (ht : TypedCmd cmd) (l : PeerId) :
    ∃ c, argOf (cmd.req l).1 (cmd.req l).2 = .ok c ∧ Asks cmd c := by
  cases cmd with
  | add p => exact ⟨.add p, by simp only [Cmd.req, argOf, parse_print ht], .add p⟩
  | remove p => exact ⟨.remove p, by simp only [Cmd.req, argOf, parse_print ht], .remove p⟩
  | change c => exact ⟨.change c, by simp only [Cmd.req, argOf, parse_all ht.1 ht.2], .change c⟩
  | transfer p =>
    cases he : p.isEmpty with
    | true => exact ⟨.transfer {}, by simp [Cmd.req, argOf, he], .transferAny p he⟩
    | false => exact ⟨.transfer p, by simp [Cmd.req, argOf, he, parse_print (show Typed p from ht)], .transfer p he⟩
  | reset p c => exact ⟨.reset c, by simp only [Cmd.req, argOf, parse_all ht.2.1 ht.2.2], .reset p c⟩
  | snapshot p => exact ⟨.snapshot, by simp only [Cmd.req, argOf], .snapshot p⟩

theorem target_req (cmd : Cmd) (l : PeerId) : (cmd.req l).2.target = printPeer l := by cases cmd <;> rfl

theorem serve_call {P : Proc G} (hP : Runs P) {cmd : Cmd} (ht : TypedCmd cmd) {l : PeerId} (hl : Typed l) {g : G}
    {n : Node G PeerId} {c : Call} (h : serve P (cmd.req l).1 g (cmd.req l).2 = .call n c) :
    Hosts P n g ∧ SamePeer n.peer l ∧ P.disabled n = false ∧ Asks cmd c := by
  obtain ⟨c', hc, ha⟩ := arg_ok ht l
  unfold serve nodeOf at h
  rw [target_req, if_neg (printPeer_ne_nil l), parse_print hl, hc] at h
  dsimp only at h
  cases hg : Cli.getNode P.maps P.disabled g (some (key l)) with
  | error e => rw [hg] at h; cases h
  | ok m =>
    rw [hg] at h
    dsimp only at h
    split at h
    · cases h
    · cases h
      obtain ⟨⟨reg, hr⟩, _⟩ := hP
      obtain ⟨h1, h2, h3, h4, _⟩ := cli_acts_on_named_node hr P.disabled g (some (key l)) _ hg
      exact ⟨⟨reg, hr, h1, h2⟩, key_same (h4 (key l) rfl), h3, ha⟩

theorem serve_err {P : Proc G} (hP : Runs P) {k : Kind} {g : G} {r : Req} {e : Int} (h : serve P k g r = .err e) : e ≠ 0 := by
  unfold serve at h
  split at h
  · split at h
    · rename_i e' he
      cases h
      split at he
      · exact hP.2.2 _ _ he
      · cases he
    · split at h
      · cases h
      · cases h; decide
      · cases h
  · rename_i e' _
    cases h
    cases e' <;> decide
  · cases h

/-- Specification: in one of the looks a process named `l` as the leader: a node of the group with the address of a peer
of `conf` did. -/
def Named (g : G) (conf : Configuration) (looks : List (Look G)) (l : PeerId) : Prop :=
  ∃ P p n, Look.served P ∈ looks ∧ p ∈ conf.peers ∧ Hosts P n g ∧ SamePeer n.peer p ∧ P.leader n = l ∧ l.isEmpty = false

theorem leader_text {P : Proc G} (hP : Runs P) {g : G} {p : PeerId} (hp : Typed p) {t : Txt}
    (h : serveLeader P g (printPeer p) = some t) :
    ∃ n, Hosts P n g ∧ SamePeer n.peer p ∧ (P.leader n).isEmpty = false ∧ parsePeer t = .ok (P.leader n) := by
  unfold serveLeader at h
  rw [parse_print hp] at h
  dsimp only at h
  rw [Option.map_eq_some_iff] at h
  obtain ⟨l, h1, rfl⟩ := h
  obtain ⟨⟨reg, hr⟩, hT, _⟩ := hP
  obtain ⟨n, h2, h3, h4, h5⟩ := cli_get_leader hr _ g _ l h1
  split at h4
  · cases h4
  · rename_i hne
    cases h4
    exact ⟨n, ⟨reg, hr, h2, h3⟩, key_same (h5 _ rfl), by simpa using hne, parse_print (hT n)⟩

theorem look_named {g : G} {conf : Configuration} {all : List (Look G)} :
    ∀ (ps : List PeerId) (ls : List (Look G)) (l0 l : PeerId), (∀ P, Look.served P ∈ ls → Runs P ∧ Look.served P ∈ all) →
      (∀ p ∈ ps, p ∈ conf.peers ∧ Typed p) → look g ps ls l0 = some l → (l0.isEmpty = false → Named g conf all l0 ∧ Typed l0) →
      l.isEmpty = false → Named g conf all l ∧ Typed l := by
  intro ps
  induction ps with
  | nil => intro ls l0 l _ _ h h0 hl; simp only [look, Option.some.injEq] at h; subst h; exact h0 hl
  | cons p ps ih =>
    intro ls l0 l hls hps h h0 hl
    have hps' : ∀ q ∈ ps, q ∈ conf.peers ∧ Typed q := fun q hq => hps q (List.mem_cons_of_mem _ hq)
    cases ls with
    | nil => simp only [look, Option.some.injEq] at h; subst h; exact h0 hl
    | cons x ls =>
      have hls' : ∀ P, Look.served P ∈ ls → Runs P ∧ Look.served P ∈ all := fun P hP => hls P (List.mem_cons_of_mem _ hP)
      cases x with
      | noChannel => simp [look] at h
      | lost => exact ih ls l0 l hls' hps' h h0 hl
      | served P =>
        obtain ⟨hP, hm⟩ := hls P List.mem_cons_self
        obtain ⟨hp, hT⟩ := hps p List.mem_cons_self
        rw [look] at h
        cases hs : serveLeader P g (printPeer p) with
        | none => rw [hs] at h; exact ih ls l0 l hls' hps' h h0 hl
        | some t =>
          rw [hs] at h
          dsimp only at h
          obtain ⟨n, h1, h2, h3, h4⟩ := leader_text hP hT hs
          rw [h4] at h
          exact ih ls _ l hls' hps' h (fun _ => ⟨⟨P, p, n, hm, hp, h1, h2, rfl, h3⟩, hP.2.1 n⟩) hl

/-- Specification: the peer that a command goes to: the one that it names, or one that was named as the leader. -/
def Goes (g : G) (conf : Configuration) (looks : List (Look G)) (cmd : Cmd) (l : PeerId) : Prop :=
  match cmd with
  | .reset p _ => l = p
  | .snapshot p => l = p
  | _ => Named g conf looks l

/-- Specification: everything has the C++ types and every process is in a state it can be in. -/
structure Fine (conf : Configuration) (looks : List (Look G)) (cmd : Cmd) (x : Rpc G) : Prop where
  conf : ∀ p ∈ conf.peers, Typed p
  looks : ∀ P, Look.served P ∈ looks → Runs P
  cmd : TypedCmd cmd
  served : ∀ a ∈ x.served, Runs a.1
  err : x.err ≠ 0

theorem run_cases {g : G} {conf : Configuration} {looks : List (Look G)} {cmd : Cmd} {x : Rpc G} (hf : Fine conf looks cmd x) :
    (∃ e, e ≠ 0 ∧ run g conf looks cmd x = (e, [])) ∨
    (∃ l, Goes g conf looks cmd l ∧ Typed l ∧ run g conf looks cmd x = ask g cmd l x) ∨
    (∃ l p, cmd = .transfer p ∧ Named g conf looks l ∧ SamePeer l p ∧ run g conf looks cmd x = (0, [])) := by
  have key : ∀ l, look g conf.peers looks {} = some l → l.isEmpty = false → Named g conf looks l ∧ Typed l := fun l h hl =>
    look_named conf.peers looks {} l (fun P hP => ⟨hf.looks P hP, hP⟩) (fun p hp => ⟨hp, hf.conf p hp⟩) h
      (fun h0 => by simp [PeerId.isEmpty] at h0) hl
  have ht := hf.cmd
  have lead : (∀ p c, cmd ≠ .reset p c) → (∀ p, cmd ≠ .snapshot p) → _ := fun (h1 : ∀ p c, cmd ≠ .reset p c) (h2 : ∀ p, cmd ≠ .snapshot p) => by
    exact (show (∃ e, e ≠ 0 ∧ run g conf looks cmd x = (e, [])) ∨
      (∃ l, Goes g conf looks cmd l ∧ Typed l ∧ run g conf looks cmd x = ask g cmd l x) ∨
      (∃ l p, cmd = .transfer p ∧ Named g conf looks l ∧ SamePeer l p ∧ run g conf looks cmd x = (0, [])) from by
        by_cases he : conf.empty = true
        · exact Or.inl ⟨22, by decide, by cases cmd <;> first | exact absurd rfl (h1 _ _) | exact absurd rfl (h2 _) | simp [run, he]⟩
        · cases hl : look g conf.peers looks {} with
          | none => exact Or.inl ⟨-1, by decide, by cases cmd <;> first | exact absurd rfl (h1 _ _) | exact absurd rfl (h2 _) | simp [run, he, hl]⟩
          | some l =>
            cases hne : l.isEmpty with
            | true => exact Or.inl ⟨-1, by decide, by cases cmd <;> first | exact absurd rfl (h1 _ _) | exact absurd rfl (h2 _) | simp [run, he, hl, hne]⟩
            | false =>
              obtain ⟨k1, k2⟩ := key l hl hne
              cases cmd with
              | reset p c => exact absurd rfl (h1 p c)
              | snapshot p => exact absurd rfl (h2 p)
              | add p => exact Or.inr (Or.inl ⟨l, k1, k2, by simp [run, he, hl, hne]⟩)
              | remove p => exact Or.inr (Or.inl ⟨l, k1, k2, by simp [run, he, hl, hne]⟩)
              | change c => exact Or.inr (Or.inl ⟨l, k1, k2, by simp [run, he, hl, hne]⟩)
              | transfer p =>
                cases hq : PeerId.eqv l p with
                | true => exact Or.inr (Or.inr ⟨l, p, rfl, k1, PeerId.eqv_iff.mp hq, by simp [run, he, hl, hne, hq]⟩)
                | false => exact Or.inr (Or.inl ⟨l, k1, k2, by simp [run, he, hl, hne, hq]⟩))
  cases cmd with
  | reset p c =>
    by_cases he : c.empty = true
    · exact Or.inl ⟨22, by decide, by simp [run, he]⟩
    · exact Or.inr (Or.inl ⟨p, rfl, ht.1, by simp [run, he]⟩)
  | snapshot p => exact Or.inr (Or.inl ⟨p, rfl, ht, rfl⟩)
  | add p => exact lead (by simp) (by simp)
  | remove p => exact lead (by simp) (by simp)
  | change c => exact lead (by simp) (by simp)
  | transfer p => exact lead (by simp) (by simp)

/-- C86. A command calls no node but the one that it names or that was named as the leader, of the group that it is for, which
allows the service; and it asks it for what the command says, whatever is printed and parsed on the way, however often. -/
theorem C86_calls {g : G} {conf : Configuration} {looks : List (Look G)} {cmd : Cmd} {x : Rpc G} (hf : Fine conf looks cmd x) :
    ∀ a ∈ (run g conf looks cmd x).2, ∃ l, Goes g conf looks cmd l ∧ Hosts a.1 a.2.1 g ∧ SamePeer a.2.1.peer l ∧
      a.1.disabled a.2.1 = false ∧ Asks cmd a.2.2.1 ∧ (a.1, a.2.2.2) ∈ x.served := by
  intro a ha
  rcases run_cases (g := g) hf with ⟨e, _, h⟩ | ⟨l, hg, hT, h⟩ | ⟨l, p, _, _, _, h⟩
  · rw [h] at ha; cases ha
  · rw [h] at ha
    unfold ask Rpc.calls at ha
    dsimp only at ha
    split at ha
    · obtain ⟨b, hb, hs⟩ := List.mem_filterMap.mp ha
      split at hs
      · rename_i n c hsv
        cases hs
        obtain ⟨h1, h2, h3, h4⟩ := serve_call (hf.served b hb) hf.cmd hT hsv
        exact ⟨l, hg, h1, h2, h3, h4, hb⟩
      · cases hs
    · cases ha
  · rw [h] at ha; cases ha

/-- C86. If a command returns OK, then such a node was called and its closure ran with OK, or the command is to make the
leader a peer that was named as the leader already. -/
theorem C86_ok {g : G} {conf : Configuration} {looks : List (Look G)} {cmd : Cmd} {x : Rpc G} (hf : Fine conf looks cmd x)
    (h : (run g conf looks cmd x).1 = 0) :
    (∃ P n c, (P, n, c, (0 : Int)) ∈ (run g conf looks cmd x).2 ∧ Asks cmd c) ∨
    (∃ l p, cmd = .transfer p ∧ Named g conf looks l ∧ SamePeer l p) := by
  rcases run_cases (g := g) hf with ⟨e, he, h'⟩ | ⟨l, hg, hT, h'⟩ | ⟨l, p, h1, h2, h3, _⟩
  · rw [h'] at h; exact absurd h he
  · refine Or.inl ?_
    rw [h'] at h ⊢
    unfold ask at h ⊢
    dsimp only at h ⊢
    unfold Rpc.status at h
    unfold Rpc.calls
    by_cases hi : x.init = true
    · rw [if_pos hi] at h ⊢
      cases ha : x.answer with
      | none => rw [ha] at h; exact absurd h hf.err
      | some i =>
        rw [ha] at h
        dsimp only at h
        cases hs : x.served[i]? with
        | none => rw [hs] at h; exact absurd h hf.err
        | some a =>
          rw [hs] at h
          dsimp only at h
          have hm : a ∈ x.served := List.mem_of_getElem? hs
          unfold attempt at h
          split at h
          · rename_i n c hsv
            exact ⟨a.1, n, c, List.mem_filterMap.mpr ⟨a, hm, by rw [hsv]; dsimp only; rw [h]⟩, (serve_call (hf.served a hm) hf.cmd hT hsv).2.2.2⟩
          · rename_i e hsv
            subst h
            exact absurd rfl (serve_err (hf.served a hm) hsv)
          · cases h
    · rw [if_neg hi] at h; cases h
  · exact Or.inr ⟨l, p, h1, h2, h3⟩

/-- C86. A command that fails before a node is called, because no leader is found or no peers are given, has called none;
otherwise it is one remote call. -/
theorem C86_one_call {g : G} {conf : Configuration} {looks : List (Look G)} {cmd : Cmd} {x : Rpc G} (hf : Fine conf looks cmd x) :
    (run g conf looks cmd x).2 = [] ∨ ∃ l, Goes g conf looks cmd l ∧ run g conf looks cmd x = ask g cmd l x := by
  rcases run_cases (g := g) hf with ⟨e, _, h⟩ | ⟨l, hg, _, h⟩ | ⟨l, p, _, _, _, h⟩
  · exact Or.inl (by rw [h])
  · exact Or.inr ⟨l, hg, h⟩
  · exact Or.inl (by rw [h])

/-- C86. A command to a leader that is found, that answers, and whose node is registered and allows the service, calls that
node. -/
theorem C86_served {g : G} {cmd : Cmd} {l : PeerId} (ht : TypedCmd cmd) (hl : Typed l) {P : Proc G} {reg : List (Node G PeerId)}
    (hr : NM P.maps reg) {n : Node G PeerId} (hn : n ∈ reg) (hg : n.group = g) (hp : n.peer = key l) (hd : P.disabled n = false)
    (hls : (∃ ps, P.listed n = .ok ps) ∨ ∀ p c, cmd ≠ .add p ∧ cmd ≠ .remove p ∧ cmd ≠ .change c) :
    ∃ c, Asks cmd c ∧ serve P (cmd.req l).1 g (cmd.req l).2 = .call n c := by
  obtain ⟨c, hc, ha⟩ := arg_ok ht l
  refine ⟨c, ha, ?_⟩
  unfold serve nodeOf
  rw [target_req, if_neg (printPeer_ne_nil l), parse_print hl, hc, ← hg]
  dsimp only
  rw [← hp, cli_finds_node hr P.disabled n hn hd]
  dsimp only
  rcases hls with ⟨ps, hps⟩ | hls
  · rw [hps]
    cases h : (cmd.req l).1.lists <;> simp
  · have : (cmd.req l).1.lists = false := by
      cases cmd with
      | add p => exact absurd rfl (hls p {}).1
      | remove p => exact absurd rfl (hls p {}).2.1
      | change c => exact absurd rfl (hls {} c).2.2
      | transfer p => rfl
      | reset p c => rfl
      | snapshot p => rfl
    rw [this]; rfl

/-- C86. A node that cannot list its peers (it does not lead) answers a membership change with that error, and is not called. -/
theorem C86_unlisted {g : G} {cmd : Cmd} {l : PeerId} (ht : TypedCmd cmd) (hl : Typed l) {P : Proc G} {reg : List (Node G PeerId)}
    (hr : NM P.maps reg) {n : Node G PeerId} (hn : n ∈ reg) (hg : n.group = g) (hp : n.peer = key l) (hd : P.disabled n = false)
    {e : Int} (hls : P.listed n = .error e) (hk : (∃ p, cmd = .add p) ∨ (∃ p, cmd = .remove p) ∨ (∃ c, cmd = .change c)) :
    serve P (cmd.req l).1 g (cmd.req l).2 = .err e := by
  unfold serve nodeOf
  rw [target_req, if_neg (printPeer_ne_nil l), parse_print hl, ← hg]
  dsimp only
  rw [← hp, cli_finds_node hr P.disabled n hn hd]
  dsimp only
  have : (cmd.req l).1.lists = true := by
    rcases hk with ⟨p, rfl⟩ | ⟨p, rfl⟩ | ⟨c, rfl⟩ <;> rfl
  rw [this, if_pos rfl, hls]

/-- C86. A raft message reaches exactly the node that its sender names: the registered one of the group with that address, and
nothing if there is none. -/
theorem C86_route {P : Proc G} {reg : List (Node G PeerId)} (hr : NM P.maps reg) (g : G) {p : PeerId} (hp : Typed p)
    (n : Node G PeerId) :
    route P g (printPeer p) = .ok n ↔ n ∈ reg ∧ n.group = g ∧ n.peer = key p := by
  unfold route
  rw [parse_print hp]
  dsimp only
  cases h : NodeManager.get P.maps g (key p) with
  | some m =>
    have hm := (C48_get hr g (key p) m).mp h
    constructor
    · intro e; cases e; exact hm
    · intro e
      have := (C48_get hr g (key p) n).mpr e
      rw [h] at this
      cases this; rfl
  | none =>
    constructor
    · intro e; cases e
    · intro e
      have := (C48_get hr g (key p) n).mpr e
      rw [h] at this; cases this

/-- C86. The answer of a raft message that finds no node is an error, whatever its text. -/
theorem C86_route_text {P : Proc G} {reg : List (Node G PeerId)} (hr : NM P.maps reg) (g : G) (t : Txt) (n : Node G PeerId)
    (h : route P g t = .ok n) : n ∈ reg ∧ n.group = g ∧ ∃ p, parsePeer t = .ok p ∧ SamePeer n.peer p := by
  unfold route at h
  split at h
  · rename_i p hp
    split at h
    · rename_i m hm
      cases h
      obtain ⟨h1, h2, h3⟩ := (C48_get hr g (key p) _).mp hm
      exact ⟨h1, h2, p, hp, key_same h3⟩
    · cases h
  · cases h

/-- C86. The role in the text of a peer does not matter: a peer is its address. -/
theorem C86_route_role (P : Proc G) (g : G) {p : PeerId} (hp : Typed p) (r : Role) (hr : Typed { p with role := r }) :
    route P g (printPeer { p with role := r }) = route P g (printPeer p) := by
  unfold route
  rw [parse_print hp, parse_print hr]
  rfl

/-- C86. A message that is refused gets EINVAL if the peer cannot be read, and ENOENT if there is no such node. -/
theorem C86_route_refused {P : Proc G} {reg : List (Node G PeerId)} (hr : NM P.maps reg) (g : G) (t : Txt) (e : Int)
    (h : route P g t = .error e) :
    (e = 22 ∧ ∀ p, parsePeer t ≠ .ok p) ∨ (e = 2 ∧ ∃ p, parsePeer t = .ok p ∧ ∀ n ∈ reg, ¬ (n.group = g ∧ n.peer = key p)) := by
  unfold route at h
  split at h
  · rename_i p hp
    split at h
    · cases h
    · rename_i hm
      cases h
      refine Or.inr ⟨rfl, p, hp, fun n hn hc => ?_⟩
      have := (C48_get hr g (key p) n).mpr ⟨hn, hc⟩
      rw [hm] at this
      cases this
  · rename_i hp
    cases h
    exact Or.inl ⟨rfl, fun p => hp p⟩

/-! ### The hypotheses are met -/
namespace Ex
def p (i : Nat) : PeerId := ⟨i, 8000, 0, .replica⟩
def c123 : Configuration := Configuration.ofVector [p 1, p 2, p 3]
def node (i : Nat) : Node Nat PeerId := ⟨i, 7, p i⟩

/-- A process with one node that says `l` is the leader. -/
def proc (i l : Nat) : Proc Nat :=
  ⟨(addNode {} (node i)).1, fun _ => false, fun _ => p l, fun _ => .ok c123.peers⟩

theorem typed (i : Nat) (h : i < 2 ^ 32) : Typed (p i) := ⟨h, by simp [p], by simp [p]⟩

theorem runs (i l : Nat) (h : l < 2 ^ 32) : Runs (proc i l) :=
  ⟨⟨[node i], .add (node i) .init (by simp [PtrOk]) (by simp [addNode, find])⟩, fun _ => typed l h, fun n e he => by cases he⟩

/-- 2 leads; the first two say so, the third is not reached; the call is served twice (the first answer is lost). -/
def looks : List (Look Nat) := [.served (proc 1 2), .served (proc 2 2), .lost]
def rpc : Rpc Nat := ⟨true, [(proc 2 2, 0), (proc 2 2, 0)], some 1, 1⟩

theorem fine (cmd : Cmd) (h : TypedCmd cmd) : Fine c123 looks cmd rpc where
  conf := by
    have : c123.peers = [p 1, p 2, p 3] := by decide
    rw [this]
    intro q hq
    simp only [List.mem_cons, List.not_mem_nil, or_false] at hq
    rcases hq with rfl | rfl | rfl <;> exact typed _ (by decide)
  looks := by
    intro P hP
    simp only [looks, List.mem_cons, List.not_mem_nil, or_false, Look.served.injEq] at hP
    rcases hP with rfl | rfl | hP
    · exact runs _ _ (by decide)
    · exact runs _ _ (by decide)
    · cases hP
  cmd := h
  served := by
    intro a ha
    simp only [rpc, List.mem_cons, List.not_mem_nil, or_false] at ha
    rcases ha with rfl | rfl <;> exact runs _ _ (by decide)
  err := by decide

example : Fine c123 looks (.add (p 4)) rpc := fine _ (typed 4 (by decide))
example : (run 7 c123 looks (.add (p 4)) rpc).1 = 0 ∧
    (run 7 c123 looks (.add (p 4)) rpc).2.map (fun a => (a.2.1, a.2.2.1)) = [(node 2, .add (p 4)), (node 2, .add (p 4))] := by
  decide +kernel
example : route (proc 2 2) 7 (printPeer (p 2)) = .ok (node 2) ∧ route (proc 2 2) 7 (printPeer (p 1)) = .error 2 :=
  ⟨(C86_route (.add (node 2) .init (by simp [PtrOk]) (by simp [addNode, find])) 7 (typed 2 (by decide)) (node 2)).mpr (by decide), by
    unfold route; rw [parse_print (typed 1 (by decide))]; rfl⟩
/-- A node that does not lead. -/
def deaf : Proc Nat := { proc 2 1 with listed := fun _ => .error 1 }
example : serve deaf (Cmd.req (p 2) (.add (p 4))).1 7 (Cmd.req (p 2) (.add (p 4))).2 = .err 1 :=
  C86_unlisted (cmd := .add (p 4)) (typed 4 (by decide)) (typed 2 (by decide)) (reg := [node 2]) (P := deaf) (n := node 2)
    (.add (node 2) .init (by simp [PtrOk]) (by simp [addNode, find])) (by simp) rfl rfl rfl rfl (Or.inl ⟨_, rfl⟩)
end Ex

/-- C86 needs "that was named as the leader": the tools say OK to a transfer to a peer that only an outdated member still takes
for the leader, and nobody is called, although 2 leads and is named, too. -/
theorem C86_transfer_violated : Fine Ex.c123 [.served (Ex.proc 1 2), .served (Ex.proc 2 2), .served (Ex.proc 3 3)] (.transfer (Ex.p 3)) Ex.rpc ∧
    run 7 Ex.c123 [.served (Ex.proc 1 2), .served (Ex.proc 2 2), .served (Ex.proc 3 3)] (.transfer (Ex.p 3)) Ex.rpc = (0, []) := by
  refine ⟨{ Ex.fine (.transfer (Ex.p 3)) (Ex.typed 3 (by decide)) with looks := ?_ }, Prod.ext (by decide +kernel)
    (List.isEmpty_iff.mp (by decide +kernel))⟩
  intro P hP
  simp only [List.mem_cons, List.not_mem_nil, or_false, Look.served.injEq] at hP
  rcases hP with rfl | rfl | rfl <;> exact Ex.runs _ _ (by decide)

/-- C86, the other direction is false: a command that returns an error may have taken effect, if its answer is lost. -/
theorem C86_error_violated : ∃ x : Rpc Nat, Fine Ex.c123 Ex.looks (.add (Ex.p 4)) x ∧
    (run 7 Ex.c123 Ex.looks (.add (Ex.p 4)) x).1 ≠ 0 ∧
    (run 7 Ex.c123 Ex.looks (.add (Ex.p 4)) x).2.map (fun a => (a.2.1, a.2.2)) =
      [(Ex.node 2, .add (Ex.p 4), 0), (Ex.node 2, .add (Ex.p 4), 0)] :=
  ⟨{ Ex.rpc with answer := none }, { Ex.fine (.add (Ex.p 4)) (Ex.typed 4 (by decide)) with served := (Ex.fine (.add (Ex.p 4)) (Ex.typed 4 (by decide))).served, err := by decide },
    by decide +kernel, by decide +kernel⟩

/-- C86. A change that only turns a member into a witness, or back, is none: the configurations are equal for change_peers
(node.cpp:846-850, configuration.h:248-258), which answers OK without changing anything. -/
theorem C86_role_violated : ∃ c d : Configuration, Built c ∧ Built d ∧ Asks (.change d) (.change d) ∧ c.equals d = true ∧
    c.peers ≠ d.peers :=
  ⟨Configuration.ofVector [Ex.p 1, Ex.p 2], Configuration.ofVector [Ex.p 1, { Ex.p 2 with role := .witness }], .ofVector _,
    .ofVector _, .change _, by decide, by decide⟩

end Braft.Props.CliClient
