import Verif.Peer
/-!
# Text form of PeerId and Configuration

Model of `PeerId::parse`, `PeerId::to_string` (configuration.h:74-101), `operator<<` and
`Configuration::parse_from` (configuration.cpp:24-49), on lists of characters.

`sscanf` directives follow the C standard; converting a decimal number outside the range of `int`
and writing more than 64 bytes into `ip_str[64]` are undefined behaviour and are the separate
outcome `ub`. `butil::str2ip` is `inet_pton(AF_INET)` after skipping white space, `butil::ip2str`
prints a dotted quad; both are written out here from their documented behaviour.
-/
set_option linter.unusedVariables false
set_option linter.unusedSimpArgs false

namespace Braft.Text

/-! ## Decimal numbers -/

def digitChar (d : Nat) : Char := Char.ofNat (48 + d)

def isDigit (c : Char) : Bool := decide (48 ≤ c.toNat) && decide (c.toNat ≤ 57)

def digitVal (c : Char) : Nat := c.toNat - 48

/-- printf `%d` of a natural number. -/
def printNat (n : Nat) : List Char :=
  if h : n < 10 then [digitChar n] else printNat (n / 10) ++ [digitChar (n % 10)]
termination_by n

/-- printf `%d`. -/
def printInt (i : Int) : List Char :=
  if i < 0 then '-' :: printNat i.natAbs else printNat i.natAbs

def valOf (ds : List Char) : Nat := ds.foldl (fun v c => v * 10 + digitVal c) 0

/-- C `isspace` in the "C" locale. -/
def isSpace (c : Char) : Bool := c == ' ' || (decide (9 ≤ c.toNat) && decide (c.toNat ≤ 13))

/-- unsigned part of scanf `%d`: at least one digit, as many as possible. -/
def scanNat (s : List Char) : Option (Nat × List Char) :=
  match s.takeWhile isDigit with
  | [] => none
  | d :: ds => some (valOf (d :: ds), s.dropWhile isDigit)

/-- scanf `%d`: skip white space, optional sign, digits. `none` = matching or input failure. -/
def scanInt (s : List Char) : Option (Int × List Char) :=
  match s.dropWhile isSpace with
  | '-' :: r => (scanNat r).map (fun (v, t) => (-(v : Int), t))
  | '+' :: r => (scanNat r).map (fun (v, t) => ((v : Int), t))
  | r => (scanNat r).map (fun (v, t) => ((v : Int), t))

/-- scanf `%*[:]`: one or more colons. -/
def scanColons (s : List Char) : Option (List Char) :=
  match s with
  | ':' :: r => some (r.dropWhile (· == ':'))
  | _ => none

def inInt32 (v : Int) : Bool := decide (-2147483648 ≤ v) && decide (v < 2147483648)

/-! ## IP addresses -/

/-- Split at every occurrence of `c`. -/
def splitOn (c : Char) : List Char → List (List Char)
  | [] => [[]]
  | x :: xs =>
    if x == c then [] :: splitOn c xs
    else match splitOn c xs with
      | [] => [[x]]
      | f :: fs => (x :: f) :: fs

/-- One octet for inet_pton: 1 to 3 digits, no superfluous leading zero, at most 255. -/
def parseOctet (f : List Char) : Option Nat :=
  if f ≠ [] ∧ f.length ≤ 3 ∧ f.all isDigit ∧ (f.head? = some '0' → f.length = 1) ∧ valOf f ≤ 255
  then some (valOf f) else none

/-- butil::str2ip: skip white space, then inet_pton(AF_INET). -/
def str2ip (s : List Char) : Option Nat :=
  match (splitOn '.' (s.dropWhile isSpace)).map parseOctet with
  | [some a, some b, some c, some d] => some (((a * 256 + b) * 256 + c) * 256 + d)
  | _ => none

/-- butil::ip2str: inet_ntop, dotted quad. -/
def ip2str (ip : Nat) : List Char :=
  printNat (ip / 16777216) ++ '.' :: (printNat (ip / 65536 % 256) ++ '.' ::
    (printNat (ip / 256 % 256) ++ '.' :: printNat (ip % 256)))

/-! ## PeerId -/

/-- Result of a parse: a value, -1, or undefined behaviour. -/
inductive Out (α : Type) | ok (a : α) | fail | ub
deriving DecidableEq, Repr

/-- The tail of the sscanf call after the port: `%*[:]%d%*[:]%d` with defaults for what is not
matched; returns (idx, role value). -/
def parseTail (s : List Char) : Out (Int × Int) :=
  match scanColons s with
  | none => .ok (0, 0)
  | some s1 => match scanInt s1 with
    | none => .ok (0, 0)
    | some (idx, s2) =>
      if !inInt32 idx then .ub else
      match scanColons s2 with
      | none => .ok (idx, 0)
      | some s3 => match scanInt s3 with
        | none => .ok (idx, 0)
        | some (v, _) => if !inInt32 v then .ub else .ok (idx, v)

/-- configuration.h:74-93 `PeerId::parse`. `(Role)value` is compared as an unsigned number, as gcc
does for this enum, so negative values are rejected too. -/
def parsePeer (str : List Char) : Out PeerId :=
  let s := str.takeWhile (· != Char.ofNat 0)
  let ipStr := s.takeWhile (· != ':')
  if ipStr = [] then .fail
  else if 64 ≤ ipStr.length then .ub
  else match scanColons (s.dropWhile (· != ':')) with
    | none => .fail
    | some s1 => match scanInt s1 with
      | none => .fail
      | some (port, s2) =>
        if !inInt32 port then .ub else
        match parseTail s2 with
        | .ub => .ub
        | .fail => .fail
        | .ok (idx, v) =>
          if v < 0 ∨ 1 < v then .fail
          else match str2ip ipStr with
            | none => .fail
            | some ip => .ok ⟨ip, port, idx, if v = 1 then .witness else .replica⟩

def roleInt : Role → Int
  | .replica => 0
  | .witness => 1

/-- configuration.h:95-99 `to_string` and 123-125 `operator<<` (same text). The 128 byte buffer is
large enough for an IPv4 end point. -/
def printPeer (p : PeerId) : List Char :=
  ip2str p.ip ++ ':' :: (printInt p.port ++ ':' :: (printInt p.idx ++ ':' :: printInt (roleInt p.role)))

/-! ## Configuration -/

/-- configuration.cpp:24-34 `operator<<`: comma separated. -/
def printPeers : List PeerId → List Char
  | [] => []
  | [p] => printPeer p
  | p :: ps => printPeer p ++ ',' :: printPeers ps

/-- Body of the loop in configuration.cpp:39-47. -/
def parseFields : List (List Char) → Configuration → Out Configuration
  | [], c => .ok c
  | f :: fs, c => match parsePeer f with
    | .ok p => parseFields fs (c.addPeer p).1
    | .fail => .fail
    | .ub => .ub

/-- configuration.cpp:36-49 `parse_from`; `butil::StringSplitter` skips empty fields by default. -/
def parseConf (s : List Char) : Out Configuration :=
  parseFields ((splitOn ',' s).filter (· ≠ [])) {}

/-! ## Lemmas -/

theorem toNat_digitChar {d : Nat} (h : d < 10) : (digitChar d).toNat = 48 + d := by
  have : d = 0 ∨ d = 1 ∨ d = 2 ∨ d = 3 ∨ d = 4 ∨ d = 5 ∨ d = 6 ∨ d = 7 ∨ d = 8 ∨ d = 9 := by omega
  rcases this with h | h | h | h | h | h | h | h | h | h <;> subst h <;> decide

theorem isDigit_digitChar {d : Nat} (h : d < 10) : isDigit (digitChar d) = true := by
  simp [isDigit, toNat_digitChar h]; omega

theorem digitVal_digitChar {d : Nat} (h : d < 10) : digitVal (digitChar d) = d := by
  simp [digitVal, toNat_digitChar h]

theorem printNat_digits (n : Nat) : ∀ c ∈ printNat n, isDigit c = true := by
  induction n using Nat.strongRecOn with
  | ind n ih =>
    unfold printNat
    split
    · rename_i h
      intro c hc; simp at hc; subst hc; exact isDigit_digitChar h
    · intro c hc
      simp only [List.mem_append, List.mem_singleton] at hc
      rcases hc with hc | hc
      · exact ih _ (by omega) c hc
      · subst hc; exact isDigit_digitChar (Nat.mod_lt _ (by omega))

theorem printNat_ne_nil (n : Nat) : printNat n ≠ [] := by
  unfold printNat; split <;> simp

theorem valOf_printNat (n : Nat) : valOf (printNat n) = n := by
  induction n using Nat.strongRecOn with
  | ind n ih =>
    unfold printNat
    split
    · rename_i h; simp [valOf, digitVal_digitChar h]
    · have := ih (n / 10) (by omega)
      unfold valOf at this ⊢
      rw [List.foldl_append, this]
      simp [digitVal_digitChar (Nat.mod_lt n (by omega : 0 < 10))]
      omega

theorem takeWhile_append_all {α} {p : α → Bool} {l r : List α} (h : ∀ x ∈ l, p x = true)
    (hr : ∀ x, r.head? = some x → p x = false) : (l ++ r).takeWhile p = l := by
  induction l with
  | nil => cases r with
    | nil => rfl
    | cons a as => simp [List.takeWhile_cons, hr a rfl]
  | cons a as ih =>
    simp only [List.cons_append, List.takeWhile_cons, h a List.mem_cons_self, if_true]
    rw [ih (fun x hx => h x (List.mem_cons_of_mem _ hx))]

theorem dropWhile_append_all {α} {p : α → Bool} {l r : List α} (h : ∀ x ∈ l, p x = true)
    (hr : ∀ x, r.head? = some x → p x = false) : (l ++ r).dropWhile p = r := by
  induction l with
  | nil => cases r with
    | nil => rfl
    | cons a as => simp [List.dropWhile_cons, hr a rfl]
  | cons a as ih =>
    simp only [List.cons_append, List.dropWhile_cons, h a List.mem_cons_self, if_true]
    exact ih (fun x hx => h x (List.mem_cons_of_mem _ hx))

theorem scanNat_print (n : Nat) (r : List Char) (hr : ∀ x, r.head? = some x → isDigit x = false) :
    scanNat (printNat n ++ r) = some (n, r) := by
  unfold scanNat
  rw [takeWhile_append_all (printNat_digits n) hr, dropWhile_append_all (printNat_digits n) hr]
  have hne := printNat_ne_nil n
  have hv := valOf_printNat n
  cases hp : printNat n with
  | nil => exact absurd hp hne
  | cons d ds => simp only [hp] at hv; simp [hv]

theorem digit_not_space {c : Char} (h : isDigit c = true) : isSpace c = false := by
  simp [isDigit] at h
  unfold isSpace
  have h1 : (c == ' ') = false := by
    rw [beq_eq_false_iff_ne]
    intro hc; subst hc
    have : (' ' : Char).toNat = 32 := by decide
    omega
  rw [h1]
  simp; omega

theorem scanInt_print (i : Int) (r : List Char) (hr : ∀ x, r.head? = some x → isDigit x = false) :
    scanInt (printInt i ++ r) = some (i, r) := by
  unfold printInt
  split
  · rename_i h
    have hd : List.dropWhile isSpace ('-' :: printNat i.natAbs ++ r) = '-' :: (printNat i.natAbs ++ r) := by
      simp [List.dropWhile_cons, show isSpace '-' = false by decide]
    unfold scanInt
    rw [hd]
    simp only [scanNat_print _ r hr, Option.map_some]
    congr 2; omega
  · rename_i h
    have hne := printNat_ne_nil i.natAbs
    have hdig := printNat_digits i.natAbs
    have hs := scanNat_print i.natAbs r hr
    cases hp : printNat i.natAbs with
    | nil => exact absurd hp hne
    | cons d ds =>
      rw [hp] at hs hdig
      have hdd := hdig d List.mem_cons_self
      have hd : List.dropWhile isSpace (d :: ds ++ r) = d :: ds ++ r := by
        simp [List.dropWhile_cons, digit_not_space hdd]
      unfold scanInt
      rw [hd]
      simp only [List.cons_append] at hs ⊢
      split
      · rename_i heq; cases heq; simp [isDigit] at hdd
      · rename_i heq; cases heq; simp [isDigit] at hdd
      · rw [hs]; simp; omega

theorem printInt_chars (i : Int) : ∀ c ∈ printInt i, isDigit c = true ∨ c = '-' := by
  intro c hc
  unfold printInt at hc
  split at hc
  · rcases List.mem_cons.mp hc with h | h
    · exact .inr h
    · exact .inl (printNat_digits _ c h)
  · exact .inl (printNat_digits _ c hc)

theorem printInt_ne_nil (i : Int) : printInt i ≠ [] := by
  unfold printInt; split
  · simp
  · exact printNat_ne_nil _

theorem splitOn_ne_nil (c : Char) (s : List Char) : splitOn c s ≠ [] := by
  induction s with
  | nil => simp [splitOn]
  | cons x xs ih =>
    unfold splitOn
    split
    · simp
    · split <;> simp

theorem splitOn_no_sep {c : Char} {s : List Char} (h : c ∉ s) : splitOn c s = [s] := by
  induction s with
  | nil => rfl
  | cons x xs ih =>
    simp only [List.mem_cons, not_or] at h
    unfold splitOn
    rw [if_neg (by simp; exact fun e => h.1 e.symm), ih h.2]

theorem splitOn_append {c : Char} {a b : List Char} (h : c ∉ a) :
    splitOn c (a ++ c :: b) = a :: splitOn c b := by
  induction a with
  | nil => simp [splitOn]
  | cons x xs ih =>
    simp only [List.mem_cons, not_or] at h
    rw [List.cons_append]
    conv => lhs; unfold splitOn
    rw [if_neg (by simp; exact fun e => h.1 e.symm), ih h.2]

theorem printNat_len {n : Nat} (h : n < 1000) : (printNat n).length ≤ 3 := by
  unfold printNat
  split
  · simp
  · unfold printNat
    split
    · simp
    · unfold printNat
      split
      · simp
      · omega

theorem printNat_head_zero {n : Nat} (h : (printNat n).head? = some '0') : (printNat n).length = 1 := by
  induction n using Nat.strongRecOn with
  | ind n ih =>
    unfold printNat at h ⊢
    split
    · simp
    · rename_i hn
      rw [dif_neg hn] at h
      exfalso
      have hne := printNat_ne_nil (n / 10)
      have h2 : (printNat (n / 10)).head? = some '0' := by
        cases hp : printNat (n / 10) with
        | nil => exact absurd hp hne
        | cons d ds => rw [hp] at h; simpa using h
      have hl := ih (n / 10) (by omega) h2
      have hv := valOf_printNat (n / 10)
      cases hp : printNat (n / 10) with
      | nil => exact hne hp
      | cons d ds =>
        rw [hp] at hl h2 hv
        simp at hl h2
        subst hl; subst h2
        have : valOf ['0'] = 0 := by decide
        omega

theorem parseOctet_print {n : Nat} (h : n < 256) : parseOctet (printNat n) = some n := by
  unfold parseOctet
  rw [if_pos]
  · rw [valOf_printNat]
  · refine ⟨printNat_ne_nil n, printNat_len (by omega), ?_, printNat_head_zero, ?_⟩
    · rw [List.all_eq_true]; exact printNat_digits n
    · rw [valOf_printNat]; omega

theorem not_mem_printNat {c : Char} (h : isDigit c = false) (n : Nat) : c ∉ printNat n := by
  intro hc; rw [printNat_digits n c hc] at h; cases h

theorem not_mem_printInt {c : Char} (h : isDigit c = false) (h2 : c ≠ '-') (n : Int) : c ∉ printInt n := by
  intro hc
  rcases printInt_chars n c hc with h' | h'
  · rw [h'] at h; cases h
  · exact h2 h'

theorem ip2str_chars {ip : Nat} {c : Char} (hc : c ∈ ip2str ip) : isDigit c = true ∨ c = '.' := by
  unfold ip2str at hc
  simp only [List.mem_append, List.mem_cons] at hc
  rcases hc with h | h | h | h | h | h | h
  all_goals first | exact .inr h | exact .inl (printNat_digits _ _ h)

theorem str2ip_ip2str {ip : Nat} (h : ip < 4294967296) : str2ip (ip2str ip) = some ip := by
  have hdot : isDigit '.' = false := by decide
  have hdrop : (ip2str ip).dropWhile isSpace = ip2str ip := by
    unfold ip2str
    cases hp : printNat (ip / 16777216) with
    | nil => exact absurd hp (printNat_ne_nil _)
    | cons d ds =>
      have := printNat_digits (ip / 16777216) d (by rw [hp]; exact List.mem_cons_self)
      simp [List.dropWhile_cons, digit_not_space this]
  unfold str2ip
  rw [hdrop]
  unfold ip2str
  rw [splitOn_append (not_mem_printNat hdot _), splitOn_append (not_mem_printNat hdot _),
    splitOn_append (not_mem_printNat hdot _), splitOn_no_sep (not_mem_printNat hdot _)]
  simp only [List.map_cons, List.map_nil]
  rw [parseOctet_print (by omega), parseOctet_print (by omega), parseOctet_print (by omega),
    parseOctet_print (by omega)]
  simp only [Option.some.injEq]
  omega

theorem ip2str_len {ip : Nat} (h : ip < 4294967296) : (ip2str ip).length < 64 := by
  unfold ip2str
  simp only [List.length_append, List.length_cons]
  have h1 := printNat_len (n := ip / 16777216) (by omega)
  have h2 := printNat_len (n := ip / 65536 % 256) (by omega)
  have h3 := printNat_len (n := ip / 256 % 256) (by omega)
  have h4 := printNat_len (n := ip % 256) (by omega)
  omega

theorem ip2str_ne_nil (ip : Nat) : ip2str ip ≠ [] := by
  unfold ip2str; simp [printNat_ne_nil]

/-- No character of a printed peer is a comma or NUL. -/
theorem printPeer_chars {p : PeerId} {c : Char} (hc : c ∈ printPeer p) :
    isDigit c = true ∨ c = '.' ∨ c = ':' ∨ c = '-' := by
  unfold printPeer at hc
  simp only [List.mem_append, List.mem_cons] at hc
  rcases hc with h | h | h | h | h | h | h
  · rcases ip2str_chars h with h | h <;> simp [h]
  all_goals first
    | (subst h; simp; done)
    | (rcases printInt_chars _ _ h with h | h <;> simp [h])

theorem scanColons_cons {s : List Char} (h : ∀ x, s.head? = some x → (x == ':') = false) :
    scanColons (':' :: s) = some s := by
  unfold scanColons
  simp only [Option.some.injEq]
  cases s with
  | nil => rfl
  | cons a as => simp only [List.dropWhile_cons, h a rfl]; rfl

theorem head_printInt {i : Int} {r : List Char} (x : Char) (h : (printInt i ++ r).head? = some x) :
    (x == ':') = false := by
  have hne := printInt_ne_nil i
  have hch := printInt_chars i
  cases hp : printInt i with
  | nil => exact absurd hp hne
  | cons d ds =>
    rw [hp] at h hch
    simp at h; subst h
    rcases hch d List.mem_cons_self with h | h
    · rw [beq_eq_false_iff_ne]; intro he; subst he; simp [isDigit] at h
    · subst h; decide

/-- A peer whose fields fit the C++ types. -/
def Fits (p : PeerId) : Prop := p.ip < 4294967296 ∧ inInt32 p.port = true ∧ inInt32 p.idx = true

theorem parsePeer_printPeer (p : PeerId) (h : Fits p) : parsePeer (printPeer p) = .ok p := by
  obtain ⟨hip, hport, hidx⟩ := h
  have hcolon : isDigit ':' = false := by decide
  have hnul : (printPeer p).takeWhile (· != Char.ofNat 0) = printPeer p := by
    have := takeWhile_append_all (p := (· != Char.ofNat 0)) (l := printPeer p) (r := [])
      (by
        intro c hc
        rw [bne_iff_ne]; intro he; subst he
        rcases printPeer_chars hc with h | h | h | h <;> revert h <;> decide)
      (by simp)
    simpa using this
  have hipc : ∀ c ∈ ip2str p.ip, (c != ':') = true := by
    intro c hc
    rw [bne_iff_ne]; intro he; subst he
    rcases ip2str_chars hc with h | h <;> revert h <;> decide
  have hr : ∀ (s : List Char) (x : Char), (':' :: s).head? = some x → (x != ':') = false := by
    intro s x hx; simp at hx; subst hx; decide
  have hr2 : ∀ (s : List Char) (x : Char), (':' :: s).head? = some x → isDigit x = false := by
    intro s x hx; simp at hx; subst hx; decide
  have htail : parseTail (':' :: (printInt p.idx ++ ':' :: printInt (roleInt p.role)))
      = .ok (p.idx, roleInt p.role) := by
    unfold parseTail
    rw [scanColons_cons head_printInt]
    simp only [scanInt_print _ _ (hr2 _), hidx, Bool.not_true, Bool.false_eq_true, if_false]
    have : scanColons (':' :: printInt (roleInt p.role)) = some (printInt (roleInt p.role)) :=
      scanColons_cons (fun x hx => head_printInt (i := roleInt p.role) (r := []) x (by simpa using hx))
    rw [this]
    have h3 : scanInt (printInt (roleInt p.role)) = some (roleInt p.role, []) := by
      have := scanInt_print (roleInt p.role) [] (by simp)
      simpa using this
    simp only [h3]
    cases p.role <;> rfl
  unfold parsePeer
  simp only [hnul]
  unfold printPeer
  rw [takeWhile_append_all hipc (hr _), dropWhile_append_all hipc (hr _)]
  rw [if_neg (ip2str_ne_nil _), if_neg (by have := ip2str_len hip; omega)]
  rw [scanColons_cons head_printInt]
  simp only [scanInt_print _ _ (hr2 _), hport, Bool.not_true, Bool.false_eq_true, if_false, htail,
    str2ip_ip2str hip]
  cases p with
  | mk ip port idx role => cases role <;> simp [roleInt]

theorem splitOn_printPeers (ps : List PeerId) (h : ps ≠ []) :
    splitOn ',' (printPeers ps) = ps.map printPeer := by
  have hcomma : ∀ p, ',' ∉ printPeer p := by
    intro p hc
    rcases printPeer_chars hc with h | h | h | h <;> revert h <;> decide
  induction ps with
  | nil => exact absurd rfl h
  | cons p ps ih =>
    cases ps with
    | nil => simp [printPeers, splitOn_no_sep (hcomma p)]
    | cons q qs =>
      simp only [printPeers, List.map_cons]
      rw [splitOn_append (hcomma p), ih (by simp)]
      simp

theorem parseFields_print (ps : List PeerId) (hf : ∀ p ∈ ps, Fits p) (c : Configuration) :
    parseFields (ps.map printPeer) c = .ok ⟨ps.foldl PeerSet.insert c.peers⟩ := by
  induction ps generalizing c with
  | nil => rfl
  | cons p ps ih =>
    simp only [List.map_cons, parseFields, parsePeer_printPeer p (hf p List.mem_cons_self),
      List.foldl_cons]
    rw [ih (fun q hq => hf q (List.mem_cons_of_mem _ hq))]
    rfl

theorem printPeer_ne_nil (p : PeerId) : printPeer p ≠ [] := by
  unfold printPeer; simp

end Braft.Text
