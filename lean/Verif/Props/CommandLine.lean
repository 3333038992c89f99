import Verif.Model.CommandLine
import Verif.Props.SessionName
import Verif.Proofs.Core

/-!
# C89: what a command line does
-/

namespace Ced.Props

open SessionName CommandLine

/-! ### The small specification -/

/-- A name that says which address: `@`, nothing (this machine) or four numbers below 256 written without leading
zeros, `:` and a number below 65536. -/
def Addresses (name : Str) (a : Addr) : Prop :=
  ∃ host port, name = '@' :: host ++ ':' :: port ∧
    (host = [] ∧ a.a = 127 ∧ a.b = 0 ∧ a.c = 0 ∧ a.d = 1 ∨
      host = natStr a.a ++ '.' :: natStr a.b ++ '.' :: natStr a.c ++ '.' :: natStr a.d) ∧
    port ≠ [] ∧ (∀ c ∈ port, c.isDigit = true) ∧ Nat.ofDigitChars 10 port 0 = a.port ∧ Addr.Valid a

/-- An ordinary machine: the temporary directory is an absolute path without a slash at its end, and the user's name
has no slash. -/
structure UsualMachine (s : Surroundings) : Prop where
  cls : s.cls.Ok
  tmp : s.tmp.head? = some '/' ∧ s.tmp.getLast? ≠ some '/'
  user : ∀ u, s.user = some u → '/' ∉ u

/-- The directory of the sessions of a user. -/
def sessionsOf (tmp user : Str) : Str := tmp ++ '/' :: (str!"ced-" ++ user)

/-- The path of a session: below the directory of the user's sessions, unless the name is an absolute path. -/
def SocketAt (tmp user name path : Str) : Prop :=
  if name.head? = some '/' then path = name else path = sessionsOf tmp user ++ '/' :: name

/-- Where the session of that name is. -/
def SessionAt (s : Surroundings) (name : Str) : Mode → Prop
  | .tcp a => TcpName s.cls name ∧ Addresses name a
  | .socket path => ¬ TcpName s.cls name ∧ ∃ u, s.user = some u ∧ SocketAt s.tmp u name path

/-- The name of the session: the one that is given, or the number of the process. -/
def nameOf (s : Surroundings) (o : Options) : Str := o.session.getD (natStr s.pid)

/-- The arguments of a server of that session. -/
def ServerFor (m : Mode) (c : Options) : Prop :=
  c.list = false ∧ c.mode = .server ∧ c.files = [] ∧ ∃ n, m.display = .ok n ∧ c.session = some n

/-- The process started on demand: a server, exactly when the session is a socket that does not exist. -/
def OnDemand (s : Surroundings) (m : Mode) : Option Options → Prop
  | some c => ServerFor m c ∧ ∃ p, m = .socket p ∧ s.pathExists p = false
  | none => ∀ p, m = .socket p → s.pathExists p = true

/-- What a command line that does not ask for the list leads to. -/
def Launches (s : Surroundings) (o : Options) (l : Launch) : Prop :=
  ∃ m, SessionAt s (nameOf s o) m ∧
    match o.mode, l with
    | .daemon, .daemon c => ServerFor m c
    | .json, .json c m' => m' = m ∧ OnDemand s m c
    | .script, .script files => files = o.files
    | .server, .server m' => m' = m ∧ ∃ n, m.display = .ok n
    | .standalone, .standalone files => files = o.files
    | .term, .term c m' files => m' = m ∧ files = o.files ∧ OnDemand s m c
    | _, _ => False

/-! ### Addresses -/

theorem parseAddr_iff {s : Str} {a : Addr} : parseAddr s = some a ↔ ∃ port,
    s = natStr a.a ++ '.' :: natStr a.b ++ '.' :: natStr a.c ++ '.' :: natStr a.d ++ ':' :: port ∧
    port ≠ [] ∧ (∀ c ∈ port, c.isDigit = true) ∧ Nat.ofDigitChars 10 port 0 = a.port ∧ Addr.Valid a := by
  have hdot : ('.' : Char).isDigit = false := by decide
  have hcol : (':' : Char).isDigit = false := by decide
  constructor
  · intro h
    unfold parseAddr at h
    split at h
    · rename_i hd p hp
      split at h
      · rename_i w x y z hw
        obtain ⟨rfl, f1, f2⟩ := pieces_pair.mp hp
        obtain ⟨rfl, g1, g2, g3, g4⟩ := pieces_four.mp hw
        simp only [Option.bind_eq_bind, Option.bind_eq_some_iff] at h
        obtain ⟨a1, h1, a2, h2, a3, h3, a4, h4, a5, h5, h⟩ := h
        injection h with h
        subst h
        obtain ⟨k1, rfl⟩ := octet_iff.mp h1
        obtain ⟨k2, rfl⟩ := octet_iff.mp h2
        obtain ⟨k3, rfl⟩ := octet_iff.mp h3
        obtain ⟨k4, rfl⟩ := octet_iff.mp h4
        obtain ⟨m1, m2, m3, m4⟩ := portOf_iff.mp h5
        exact ⟨p, by simp, m1, m2, m3, k1, k2, k3, k4, m4⟩
      · cases h
    · cases h
  · rintro ⟨port, rfl, m1, m2, m3, k1, k2, k3, k4, m4⟩
    have h1 : pieces ':' (natStr a.a ++ '.' :: natStr a.b ++ '.' :: natStr a.c ++ '.' :: natStr a.d ++ ':' :: port) =
        [natStr a.a ++ '.' :: (natStr a.b ++ '.' :: (natStr a.c ++ '.' :: natStr a.d)), port] := by
      rw [pieces_pair]
      refine ⟨by simp, by simp [natStr_free hcol], fun hc => ?_⟩
      have := m2 _ hc
      rw [hcol] at this; cases this
    have h2 := pieces_four (sep := '.') (a := natStr a.a) (b := natStr a.b) (c := natStr a.c) (d := natStr a.d)
      |>.mpr ⟨rfl, natStr_free hdot, natStr_free hdot, natStr_free hdot, natStr_free hdot⟩
    unfold parseAddr
    rw [h1]
    dsimp only
    rw [h2]
    dsimp only
    rw [octet_iff.mpr ⟨k1, rfl⟩, octet_iff.mpr ⟨k2, rfl⟩, octet_iff.mpr ⟨k3, rfl⟩, octet_iff.mpr ⟨k4, rfl⟩,
      portOf_iff.mpr ⟨m1, m2, m3, m4⟩]
    rfl

/-- A colon splits a string in one way. -/
theorem colon_split {a b p q : Str} (h : a ++ ':' :: p = b ++ ':' :: q) (hp : ':' ∉ p) (hq : ':' ∉ q) :
    a = b ∧ p = q := by
  induction a generalizing b with
  | nil =>
    cases b with
    | nil => simp at h; exact ⟨rfl, h⟩
    | cons c b =>
      simp only [List.nil_append, List.cons_append, List.cons.injEq] at h
      exact absurd (by rw [h.2]; simp) hp
  | cons x a ih =>
    cases b with
    | nil =>
      simp only [List.nil_append, List.cons_append, List.cons.injEq] at h
      exact absurd (by rw [← h.2]; simp) hq
    | cons c b =>
      simp only [List.cons_append, List.cons.injEq] at h
      obtain ⟨e1, e2⟩ := ih h.2
      exact ⟨by rw [h.1, e1], e2⟩

theorem parse_tcp {cls : Classes} (ok : cls.Ok) {name : Str} (h : TcpName cls name) (m : Mode) :
    parse cls name = .ok m ↔ ∃ a, m = .tcp a ∧ Addresses name a := by
  have hcol : (':' : Char).isDigit = false := by decide
  have h' := (isTcp_iff ok).mpr h
  unfold isTcp at h'
  obtain ⟨⟨g1, g2⟩, hg⟩ := Option.isSome_iff_exists.mp h'
  obtain ⟨host, rfl, e1, n2, d2, _⟩ := (captures_some ok).mp hg
  dsimp only at e1 n2 d2 hg
  have c2 : ':' ∉ g2 := fun hc => by have := d2 _ hc; rw [ok.colon.2] at this; cases this
  have key : ∀ a, parseAddr (g1.getD str!"127.0.0.1" ++ ':' :: g2) = some a ↔
      Addresses ('@' :: host ++ ':' :: g2) a := by
    intro a
    rw [parseAddr_iff]
    constructor
    · rintro ⟨port, e, m1, m2, m3, m4⟩
      have cp : ':' ∉ port := fun hc => by have := m2 _ hc; rw [hcol] at this; cases this
      obtain ⟨e2, rfl⟩ := colon_split e c2 cp
      refine ⟨host, g2, rfl, ?_, m1, m2, m3, m4⟩
      by_cases hh : host = []
      · left
        rw [e1, if_pos hh] at e2
        have k := (parseAddr_iff (s := str!"127.0.0.1:0") (a := ⟨a.a, a.b, a.c, a.d, 0⟩)).mpr
          ⟨str!"0", by
            have : str!"127.0.0.1:0" = str!"127.0.0.1" ++ ':' :: str!"0" := rfl
            rw [this]; exact congrArg (· ++ ':' :: str!"0") e2,
            by decide, by decide, (by decide : Nat.ofDigitChars 10 ['0'] 0 = 0), m4.1, m4.2.1, m4.2.2.1, m4.2.2.2.1, Nat.zero_le _⟩
        have k2 : parseAddr str!"127.0.0.1:0" = some ⟨127, 0, 0, 1, 0⟩ := by decide +kernel
        rw [k2] at k
        injection k with k
        injection k with j1 j2 j3 j4
        exact ⟨hh, j1.symm, j2.symm, j3.symm, j4.symm⟩
      · right
        rw [e1, if_neg hh] at e2
        exact e2
    · rintro ⟨host', port, e, hd, m1, m2, m3, m4⟩
      have cp : ':' ∉ port := fun hc => by have := m2 _ hc; rw [hcol] at this; cases this
      obtain ⟨e2, rfl⟩ := colon_split e c2 cp
      injection e2 with _ e2
      subst e2
      refine ⟨g2, ?_, m1, m2, m3, m4⟩
      congr 1
      rw [e1]
      rcases hd with ⟨hh, k1, k2, k3, k4⟩ | hh
      · rw [if_pos hh, k1, k2, k3, k4]
        decide +kernel
      · by_cases h0 : host = []
        · exfalso
          rw [h0] at hh
          have := congrArg List.length hh
          simp at this
        · rw [if_neg h0]; exact hh
  unfold parse
  rw [hg]
  dsimp only
  cases hp : parseAddr (g1.getD str!"127.0.0.1" ++ ':' :: g2) with
  | none =>
    constructor
    · intro h; cases h
    · rintro ⟨a, _, ha⟩
      have := (key a).mpr ha
      rw [hp] at this; cases this
  | some a =>
    have ha := (key a).mp hp
    constructor
    · intro h
      injection h with h
      exact ⟨a, h.symm, ha⟩
    · rintro ⟨b, rfl, hb⟩
      have := (key b).mpr hb
      rw [hp] at this
      injection this with this
      subst this
      rfl

/-! ### The session -/

theorem root_at {s : Surroundings} (us : UsualMachine s) : buildRoot s = (unwrapR s.user).map (sessionsOf s.tmp) := by
  unfold buildRoot
  cases s.user with
  | none => rfl
  | some u =>
    show Except.ok _ = Except.ok _
    congr 1
    unfold push sessionsOf
    rw [if_neg us.tmp.2]
    rfl

theorem root_ok {s : Surroundings} (us : UsualMachine s) {u : Str} (hu : s.user = some u) :
    RootOk (sessionsOf s.tmp u) := by
  constructor
  · unfold sessionsOf
    obtain ⟨c, r, e⟩ := List.exists_cons_of_ne_nil (l := s.tmp) (by intro h; have := us.tmp.1; rw [h] at this; cases this)
    have := us.tmp.1
    rw [e] at this ⊢
    simpa using this
  · intro h
    have hm := List.mem_of_getLast? h
    unfold sessionsOf at h
    rw [List.getLast?_append] at h
    have := us.user u hu
    rw [List.getLast?_cons, List.getLast?_append] at h
    cases hl : u.getLast? with
    | none => rw [hl] at h; simp at h
    | some c =>
      rw [hl] at h
      simp at h
      subst h
      exact this (List.mem_of_getLast? hl)

theorem push_at {root name path : Str} (hr : RootOk root) :
    push root name = path ↔ if name.head? = some '/' then path = name else path = root ++ '/' :: name := by
  unfold push
  split
  · simp [eq_comm]
  · rename_i hn
    rw [if_neg hr.2, if_neg]
    · exact eq_comm
    · intro h
      cases name with
      | nil => cases h
      | cons c r =>
        simp only [List.head?_cons, Option.some.injEq] at h
        exact hn r (by rw [h])

/-- C89 (where): the session of a name is at the address the name says if it has the form of an address, and otherwise
below the directory of the user's sessions (or at the absolute path); there is no session, and ced crashes, when the
name has the form of an address and says none, or when it has not and there is no user's name. -/
theorem C89_session {s : Surroundings} (us : UsualMachine s) (name : Str) (m : Mode) :
    sessionNamed s name = .ok m ↔ SessionAt s name m := by
  unfold sessionNamed
  by_cases ht : TcpName s.cls name
  · rw [if_pos ((isTcp_iff us.cls).mpr ht), parse_tcp us.cls ht]
    cases m with
    | tcp a => exact ⟨fun ⟨b, e, h⟩ => ⟨ht, by cases e; exact h⟩, fun h => ⟨a, rfl, h.2⟩⟩
    | socket p => exact ⟨fun ⟨b, e, h⟩ => (by cases e), fun h => absurd ht h.1⟩
  · have hn : ¬ isTcp s.cls name = true := fun h => ht ((isTcp_iff us.cls).mp h)
    rw [if_neg hn, root_at us]
    cases hu : s.user with
    | none =>
      constructor
      · intro h; cases h
      · intro h
        cases m with
        | tcp a => exact absurd h.1 ht
        | socket p => obtain ⟨_, u, e, _⟩ := h; rw [hu] at e; cases e
    | some u =>
      have hf := fromName_socket (cls := s.cls) (name := name) (root_ok us hu) hn
      unfold fromName at hf
      rw [if_neg hn] at hf
      show parse s.cls (push (sessionsOf s.tmp u) name) = _ ↔ _
      rw [hf]
      cases m with
      | tcp a => exact ⟨fun h => (by cases h), fun h => absurd h.1 ht⟩
      | socket p =>
        have := push_at (name := name) (path := p) (root_ok us hu)
        constructor
        · intro h
          injection h with h
          injection h with h
          exact ⟨ht, u, hu, this.mp h⟩
        · rintro ⟨_, u', e, h⟩
          rw [hu] at e
          cases e
          rw [this.mpr h]

theorem daemon_iff {m : Mode} {c : Options} : startDaemon m = .ok c ↔ ServerFor m c := by
  unfold startDaemon ServerFor
  cases hd : m.display with
  | error e =>
    constructor
    · intro h; cases h
    · rintro ⟨_, _, _, n, h, _⟩; cases h
  | ok n =>
    show Except.ok _ = _ ↔ _
    constructor
    · intro h
      injection h with h
      subst h
      exact ⟨rfl, rfl, rfl, n, rfl, rfl⟩
    · rintro ⟨h1, h2, h3, n', h4, h5⟩
      cases h4
      cases c
      dsimp only at h1 h2 h3 h5
      subst h1 h2 h3 h5
      rfl

theorem ensure_iff {s : Surroundings} {m : Mode} {c : Option Options} :
    ensureSession s m = .ok c ↔ OnDemand s m c := by
  unfold ensureSession
  cases m with
  | tcp a =>
    cases c with
    | none => exact ⟨fun _ p h => (by cases h), fun _ => rfl⟩
    | some c => exact ⟨fun h => (by cases h), fun ⟨_, p, h, _⟩ => (by cases h)⟩
  | socket p =>
    dsimp only
    by_cases hp : s.pathExists p = true
    · rw [if_pos hp]
      cases c with
      | none => exact ⟨fun _ q h => (by cases h; exact hp), fun _ => rfl⟩
      | some c => exact ⟨fun h => (by cases h), fun ⟨_, q, h, h2⟩ => (by cases h; rw [hp] at h2; cases h2)⟩
    · rw [if_neg hp]
      cases c with
      | none =>
        constructor
        · intro h
          obtain ⟨_, _, h⟩ := bind_inv h
          cases h
        · intro h
          exact absurd (h p rfl) hp
      | some c =>
        constructor
        · intro h
          obtain ⟨c', h1, h⟩ := bind_inv h
          cases h
          exact ⟨daemon_iff.mp h1, p, rfl, by simpa using hp⟩
        · rintro ⟨h1, _⟩
          rw [daemon_iff.mpr h1]
          rfl

/-- C89 (the list): with `-l` ced prints the names in the directory of the user's sessions and does nothing else,
whatever the other arguments; without a user's name it crashes. -/
theorem C89_list {s : Surroundings} (us : UsualMachine s) {o : Options} (ho : o.list = true) (l : Launch) :
    main s o = .ok l ↔ ∃ u, s.user = some u ∧ l = .list (s.entries (sessionsOf s.tmp u)) := by
  unfold main
  rw [if_pos ho, root_at us]
  cases s.user with
  | none =>
    constructor
    · intro h; cases h
    · rintro ⟨u, h, _⟩; cases h
  | some u =>
    show Except.ok _ = _ ↔ _
    constructor
    · intro h
      injection h with h
      exact ⟨u, rfl, h.symm⟩
    · rintro ⟨u', h, rfl⟩
      cases h
      rfl

/-- C89 (the modes): without `-l` a command line leads to what `Launches` says, and crashes when there is no such thing.
In every mode, also in those that use no session, the name must lead to a session; a server is started for `daemon`,
and for `json` and `term` exactly when the session is a socket that does not exist, never for an address; the file names
are used by `script`, `standalone` and `term`, and ignored by `json`, `server` and `daemon`. -/
theorem C89_modes {s : Surroundings} (us : UsualMachine s) {o : Options} (ho : o.list = false) (l : Launch) :
    main s o = .ok l ↔ Launches s o l := by
  have hs : sessionFor s o = sessionNamed s (nameOf s o) := by
    unfold sessionFor nameOf sessionOfPid
    cases o.session <;> rfl
  unfold main Launches
  rw [if_neg (by rw [ho]; simp), hs]
  constructor
  · intro h
    obtain ⟨m, hm, h⟩ := bind_inv h
    refine ⟨m, (C89_session us _ _).mp hm, ?_⟩
    cases hmode : o.mode <;> rw [hmode] at h <;> dsimp only at h
    · obtain ⟨c, hc, h⟩ := bind_inv h
      cases h
      exact daemon_iff.mp hc
    · obtain ⟨c, hc, h⟩ := bind_inv h
      cases h
      exact ⟨rfl, ensure_iff.mp hc⟩
    · cases h; rfl
    · obtain ⟨n, hn, h⟩ := bind_inv h
      cases h
      exact ⟨rfl, n, hn⟩
    · cases h; rfl
    · obtain ⟨c, hc, h⟩ := bind_inv h
      cases h
      exact ⟨rfl, rfl, ensure_iff.mp hc⟩
  · rintro ⟨m, hm, h⟩
    rw [(C89_session us _ _).mpr hm]
    show (match o.mode with
      | .daemon => _
      | .json => _
      | .script => _
      | .server => _
      | .standalone => _
      | .term => _) = _
    cases hmode : o.mode <;> rw [hmode] at h <;> cases l <;> dsimp only at h ⊢ <;> try exact h.elim
    · rw [daemon_iff.mpr h]; rfl
    · obtain ⟨rfl, h⟩ := h
      rw [ensure_iff.mpr h]; rfl
    · subst h; rfl
    · obtain ⟨rfl, n, h⟩ := h
      rw [h]; rfl
    · subst h; rfl
    · obtain ⟨rfl, rfl, h⟩ := h
      rw [ensure_iff.mpr h]; rfl

/-! ### The server that is started -/

theorem plain_at {tmp user n p : Str} (h : PlainName n) (hp : SocketAt tmp user n p) :
    p = sessionsOf tmp user ++ '/' :: n := by
  unfold SocketAt at hp
  rw [if_neg] at hp
  · exact hp
  · intro hh
    exact h.2.1 (List.mem_of_mem_head? hh)

/-- C89 (the server): for a plain name or an address the process that is started is, for every process of the same user
on the same machine, the server of the very session the first one was asked for. -/
theorem C89_server {s s' : Surroundings} (us : UsualMachine s) (us' : UsualMachine s') (hc : s'.cls = s.cls)
    (ht : s'.tmp = s.tmp) (hu : s'.user = s.user) {name : Str} (hn : PlainName name ∨ TcpName s.cls name)
    {m : Mode} (hm : SessionAt s name m) {c : Options} (h : ServerFor m c) :
    ∀ l, main s' c = .ok l ↔ l = .server m := by
  obtain ⟨h1, h2, h3, n, h4, h5⟩ := h
  have key : SessionAt s' n m := by
    cases m with
    | tcp a =>
      obtain ⟨g1, g2⟩ := hm
      have hf : fromName s.cls tmpRoot name = .ok (.tcp a) := by
        rw [fromName_tcp ((isTcp_iff us.cls).mpr g1)]
        exact (parse_tcp us.cls g1 _).mpr ⟨a, rfl, g2⟩
      have hd := C54_tcp us.cls tmpRoot_ok hf
      unfold daemonMode at hd
      rw [h4] at hd
      have hd : fromName s.cls tmpRoot n = .ok (.tcp a) := hd
      by_cases hi : isTcp s.cls n = true
      · rw [fromName_tcp hi] at hd
        obtain ⟨b, e, hb⟩ := (parse_tcp us.cls ((isTcp_iff us.cls).mp hi) _).mp hd
        cases e
        exact ⟨by rw [hc]; exact (isTcp_iff us.cls).mp hi, hb⟩
      · rw [fromName_socket tmpRoot_ok hi] at hd
        cases hd
    | socket p =>
      obtain ⟨g1, u, g2, g3⟩ := hm
      rcases hn with hn | hn
      · have hp := plain_at hn g3
        have : n = name := by
          have h4' : unwrapR (fileName p) = .ok n := h4
          rw [hp, fileName_push hn] at h4'
          cases h4'
          rfl
        subst this
        exact ⟨by rw [hc]; exact g1, u, by rw [hu]; exact g2, by rw [ht]; exact g3⟩
      · exact absurd hn g1
  have uniq : ∀ m', SessionAt s' n m' → m' = m := by
    intro m' hm'
    have e1 := (C89_session us' n m).mpr key
    have e2 := (C89_session us' n m').mpr hm'
    rw [e1] at e2
    cases e2
    rfl
  intro l
  rw [C89_modes us' h1]
  unfold Launches nameOf
  rw [h5, h2]
  constructor
  · rintro ⟨m', hm', h⟩
    have := uniq m' hm'
    subst this
    cases l <;> dsimp only at h <;> try exact h.elim
    rw [h.1]
  · rintro rfl
    exact ⟨m, key, rfl, n, h4⟩

/-! ### Sessions of different users and processes -/

theorem decimal_plain (n : Nat) : PlainName (natStr n) := by
  refine ⟨decimal_ne n, natStr_free (by decide), ?_, ?_⟩ <;>
  · intro h
    have : '.' ∈ natStr n := by rw [h]; simp
    exact natStr_free (by decide) this

theorem decimal_no_address (cls : Classes) (n : Nat) : ¬ TcpName cls (natStr n) := by
  rintro ⟨a, p, h, _⟩
  have : '@' ∈ natStr n := by rw [h]; simp
  exact natStr_free (by decide) this

/-- C89 (its own session): without `-s` the session is named after the process, so that no two processes share one. -/
theorem C89_own {s : Surroundings} {u : Str} (hu : s.user = some u) (m : Mode) :
    SessionAt s (natStr s.pid) m ↔ m = .socket (sessionsOf s.tmp u ++ '/' :: natStr s.pid) := by
  cases m with
  | tcp a => exact ⟨fun h => absurd h.1 (decimal_no_address _ _), fun h => (by cases h)⟩
  | socket p =>
    constructor
    · rintro ⟨_, u', e, h⟩
      rw [hu] at e
      cases e
      rw [plain_at (decimal_plain _) h]
    · intro h
      cases h
      refine ⟨decimal_no_address _ _, u, hu, ?_⟩
      unfold SocketAt
      rw [if_neg]
      intro hh
      exact (decimal_plain s.pid).2.1 (List.mem_of_mem_head? hh)

/-- C89 (users): the sockets of two users, or of two plain names of one user, are different. -/
theorem C89_private {tmp u v n k p q : Str} (hu : '/' ∉ u) (hv : '/' ∉ v) (hn : PlainName n) (hk : PlainName k)
    (hp : SocketAt tmp u n p) (hq : SocketAt tmp v k q) : p = q ↔ u = v ∧ n = k := by
  rw [plain_at hn hp, plain_at hk hq]
  constructor
  · intro h
    unfold sessionsOf at h
    simp only [List.append_assoc, List.cons_append, List.append_cancel_left_eq, List.nil_append,
      List.cons.injEq, true_and] at h
    clear hp hq
    have hn' := hn.2.1
    have hk' := hk.2.1
    clear hn hk
    induction u generalizing v with
    | nil =>
      cases v with
      | nil => simp at h; exact ⟨rfl, h⟩
      | cons c v =>
        simp only [List.nil_append, List.cons_append, List.cons.injEq] at h
        exact absurd (by rw [h.1]; simp) hv
    | cons x u ih =>
      cases v with
      | nil =>
        simp only [List.nil_append, List.cons_append, List.cons.injEq] at h
        exact absurd (by rw [h.1]; simp) hu
      | cons c v =>
        simp only [List.cons_append, List.cons.injEq] at h
        obtain ⟨e1, e2⟩ := ih (fun hc => hu (List.mem_cons_of_mem _ hc)) (fun hc => hv (List.mem_cons_of_mem _ hc)) h.2
        exact ⟨by rw [h.1, e1], e2⟩
  · rintro ⟨rfl, rfl⟩; rfl

/-! ### The program of a server -/

theorem pop_at {dir name : Str} (hn : '/' ∉ name) : pop (dir ++ '/' :: name) = if dir = [] then ['/'] else dir := by
  have e : ((dir ++ '/' :: name).reverse.dropWhile (· ≠ '/')).drop 1 = dir.reverse := by
    have h1 : ∀ (a b : Str), '/' ∉ a → (a ++ '/' :: b).dropWhile (· ≠ '/') = '/' :: b := by
      intro a b ha
      induction a with
      | nil => rfl
      | cons c a ih =>
        rw [List.cons_append, List.dropWhile_cons_of_pos (by simp; rintro rfl; exact ha (by simp)), ih (fun h => ha (by simp [h]))]
    have := h1 name.reverse dir.reverse (by simpa using hn)
    simp only [List.reverse_append, List.reverse_cons, List.append_assoc, List.singleton_append]
    rw [this]
    rfl
  unfold pop
  rw [e]
  by_cases hd : dir = []
  · subst hd; rfl
  · rw [if_neg hd]
    have : dir.reverse ≠ [] := by simpa using hd
    split
    · rename_i h; exact absurd h this
    · exact List.reverse_reverse _

/-- C89 (the program): a server is started from the program that `CED_BIN` says; without it, from the file `ced` in the directory
of the running program if there is one, else from the `ced` that the system finds. -/
theorem C89_program (h : Here) : (∀ bin, h.bin = some bin → findBin h = bin) ∧
    (∀ dir name, h.bin = none → h.exe = some (dir ++ '/' :: name) → '/' ∉ name → dir.getLast? ≠ some '/' →
      findBin h = if h.pathExists (dir ++ str!"/ced") then dir ++ str!"/ced" else str!"ced") ∧
    (h.bin = none → h.exe = none → findBin h = str!"ced") := by
  refine ⟨fun bin hb => ?_, fun dir name hb he hn hl => ?_, fun hb he => ?_⟩
  · unfold findBin; rw [hb]
  · unfold findBin
    rw [hb, he]
    dsimp only
    have e : push (pop (dir ++ '/' :: name)) (str!"ced") = dir ++ str!"/ced" := by
      rw [pop_at hn]
      by_cases hd : dir = []
      · subst hd; rfl
      · rw [if_neg hd]
        unfold push
        rw [if_neg hl]
        rfl
    rw [e]
  · unfold findBin; rw [hb, he]

/-- C89 (the same program): a program called `ced` starts servers from itself, wherever it is, unless `CED_BIN` says otherwise. -/
theorem C89_itself (h : Here) {dir : Str} (hb : h.bin = none) (he : h.exe = some (dir ++ str!"/ced"))
    (hl : dir.getLast? ≠ some '/') (hx : h.pathExists (dir ++ str!"/ced") = true) : h.exe = some (findBin h) := by
  rw [(C89_program h).2.1 dir (str!"ced") hb he (by decide) hl, if_pos hx, he]

/-- The terminal of another program beside `ced`, and one that is alone. -/
example : findBin ⟨none, some str!"/opt/x/gui", fun p => p = str!"/opt/x/ced"⟩ = str!"/opt/x/ced" ∧
    findBin ⟨none, some str!"/gui", fun p => p = str!"/ced"⟩ = str!"/ced" ∧
    findBin ⟨none, some str!"/opt/x/gui", fun _ => false⟩ = str!"ced" ∧
    findBin ⟨some str!"/bin/other", some str!"/opt/x/ced", fun _ => true⟩ = str!"/bin/other" := by decide +kernel

/-! ### Concrete command lines -/

/-- A machine of the user `me` with one session. -/
def machineA : Surroundings where
  cls := asciiClasses
  tmp := str!"/tmp"
  user := some str!"me"
  pid := 4711
  entries d := if d = str!"/tmp/ced-me" then [str!"old"] else []
  pathExists p := p = str!"/tmp/ced-me/old"

theorem machineA_usual : UsualMachine machineA :=
  ⟨asciiClasses_ok, ⟨by decide, by decide⟩, fun u h => by cases h; decide⟩

/-- C89 is not vacuous: the list; a terminal for a new session with a file, for the old one, and for one's own. -/
example : main machineA ⟨true, some str!"@x:1", .term, []⟩ = .ok (.list [str!"old"]) ∧
    main machineA ⟨false, some str!"new", .term, [str!"f"]⟩ =
      .ok (.term (some ⟨false, some str!"new", .server, []⟩) (.socket str!"/tmp/ced-me/new") [str!"f"]) ∧
    main machineA ⟨false, some str!"new", .server, []⟩ = .ok (.server (.socket str!"/tmp/ced-me/new")) ∧
    main machineA ⟨false, some str!"old", .term, [str!"f"]⟩ =
      .ok (.term none (.socket str!"/tmp/ced-me/old") [str!"f"]) ∧
    main machineA ⟨false, none, .daemon, []⟩ = .ok (.daemon ⟨false, some str!"4711", .server, []⟩) := by
  decide +kernel

example : Addresses str!"@10.0.12.7:0080" ⟨10, 0, 12, 7, 80⟩ :=
  ⟨str!"10.0.12.7", str!"0080", rfl, .inr (by decide +kernel), by decide, by decide, by decide, by unfold Addr.Valid; decide⟩

/-- C89, refuted (1): a name of the form of an address that says none crashes ced also where no session is used. -/
theorem C89_script_refuted : main machineA ⟨false, some str!"@localhost:80", .script, [str!"a.lua"]⟩ = .error .unwrap ∧
    main machineA ⟨false, some str!"@localhost:80", .standalone, []⟩ = .error .unwrap := by decide +kernel

/-- C89, refuted (2): nobody is started for an address, and `json` ignores the files. -/
theorem C89_address_refuted : main machineA ⟨false, some str!"@:80", .json, [str!"f"]⟩ =
    .ok (.json none (.tcp ⟨127, 0, 0, 1, 80⟩)) := by decide +kernel

/-- C89, refuted (3): with a slash in the name the server that is started serves another session. -/
theorem C89_slash_refuted : main machineA ⟨false, some str!"a/b", .json, []⟩ =
      .ok (.json (some ⟨false, some str!"b", .server, []⟩) (.socket str!"/tmp/ced-me/a/b")) ∧
    main machineA ⟨false, some str!"b", .server, []⟩ = .ok (.server (.socket str!"/tmp/ced-me/b")) := by
  decide +kernel

end Ced.Props
