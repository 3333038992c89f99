import Verif.Model.Host
import Verif.Proofs.Assoc

/-!
# The machine with addresses and paths: what each step does (for C97, C98)
-/

namespace Ced

open SessionName

namespace Host

theorem mem_prefixes {p q : FsPath} : q ∈ prefixes p ↔ q ≠ [] ∧ q <+: p := by
  simp only [prefixes, List.mem_map, List.mem_range]
  constructor
  · rintro ⟨i, hi, rfl⟩
    refine ⟨fun e => ?_, List.take_prefix _ _⟩
    have := congrArg List.length e
    simp only [List.length_take, List.length_nil] at this
    omega
  · rintro ⟨hne, r, rfl⟩
    have : 0 < q.length := List.length_pos_iff.2 hne
    refine ⟨q.length - 1, by simp; omega, ?_⟩
    rw [Nat.sub_add_cancel this, List.take_left]

theorem mem_entries {fs : Assoc FsPath Node} {p : FsPath} {n : Str} : n ∈ entries fs p ↔ fs.has (p ++ [n]) = true := by
  simp only [entries, List.mem_filterMap]
  constructor
  · rintro ⟨q, hq, h⟩
    split at h
    · rename_i hc
      rw [← Assoc.mem_keys]
      have : q = p ++ [n] := by
        obtain ⟨ys, rfl⟩ := List.getLast?_eq_some_iff.1 h
        rw [← hc.2, List.dropLast_concat]
      rw [← this]; exact hq
    · cases h
  · intro h
    exact ⟨p ++ [n], Assoc.mem_keys.2 h, by simp⟩

theorem get_makeDirs (fs : Assoc FsPath Node) (p q : FsPath) :
    (makeDirs fs p).get q = if fs.has q = false ∧ q ≠ [] ∧ q <+: p then some .dir else fs.get q := by
  have key : ∀ (l : List FsPath) (fs : Assoc FsPath Node),
      (l.foldl (fun fs q => if fs.has q then fs else fs.set q .dir) fs).get q =
        if fs.has q = false ∧ q ∈ l then some .dir else fs.get q := by
    intro l
    induction l with
    | nil => intro fs; simp
    | cons x l ih =>
      intro fs
      rw [List.foldl_cons, ih]
      by_cases hx : fs.has x = true
      · rw [if_pos hx]
        by_cases e : q = x
        · subst e; simp [hx]
        · simp [e]
      · rw [if_neg hx]
        by_cases e : q = x
        · subst e
          simp only [Bool.not_eq_true] at hx
          simp [Assoc.has_set, hx]
        · simp [Assoc.has_set, e, Assoc.get_set_ne _ e]
  rw [makeDirs, key]
  simp only [mem_prefixes]

theorem gone_none {h : Host} {pid : Nat} (hs : h.servers.get pid = none) : h.gone pid = h := by simp [gone, hs]

theorem gone_fs (h : Host) (pid : Nat) : (h.gone pid).fs = h.fs := by
  unfold gone; split <;> rfl

theorem gone_clients (h : Host) (pid : Nat) : (h.gone pid).clients = h.clients := by
  unfold gone; split <;> rfl

theorem gone_next (h : Host) (pid : Nat) : (h.gone pid).next = h.next := by
  unfold gone; split <;> rfl

theorem gone_servers (h : Host) (pid q : Nat) : (h.gone pid).servers.get q = if q = pid then none else h.servers.get q := by
  unfold gone
  cases hs : h.servers.get pid with
  | none =>
    dsimp only
    split
    · rename_i e; rw [e, hs]
    · rfl
  | some p => exact Assoc.get_del _ _ _

theorem gone_ports {h : Host} {pid : Nat} {p : HostServer} (hs : h.servers.get pid = some p) (a : Addr) :
    (h.gone pid).ports.get a = if p.place = .tcp a ∧ h.ports.get a = some pid then none else h.ports.get a := by
  unfold gone
  rw [hs]
  dsimp only
  cases hp : p.place with
  | socket d n => simp
  | tcp b =>
    dsimp only
    by_cases e : a = b
    · subst e
      by_cases hb : h.ports.get a = some pid
      · rw [if_pos hb, if_pos ⟨rfl, hb⟩, Assoc.get_del_self]
      · rw [if_neg hb, if_neg (fun x => hb x.2)]
    · have : ¬ (Place.tcp b = .tcp a ∧ h.ports.get a = some pid) := fun x => e (by cases x.1; rfl)
      rw [if_neg this]
      split
      · exact Assoc.get_del_ne e
      · rfl

/-- What a step can be. -/
inductive Moved (root : FsPath) (h : Host) (st : Step) (h' : Host) : Prop
  /-- the servers, the files and the addresses are as before -/
  | idle (fs : h'.fs = h.fs) (ports : h'.ports = h.ports) (servers : h'.servers = h.servers)
  /-- a new server -/
  | spawn (place : Place) (fs : h'.fs = h.fs) (ports : h'.ports = h.ports)
      (servers : h'.servers = h.servers.set h.next ⟨place, .starting, false⟩) (next : h.next < h'.next)
      (why : st = .server place ∨ ∃ c g d n, st = .go c ∧ h.servers.get c = none ∧ h.clients.get c = some g ∧ g.place = .socket d n ∧
        h.pathExists (d ++ [n]) = false ∧ place = .socket root n)
  /-- a server does its next call -/
  | server (pid : Nat) (p : HostServer) (call : st = .go pid) (at_ : h.servers.get pid = some p)
      (eq : h' = goServer root h pid p)
  /-- the last client leaves -/
  | leave (pid : Nat) (p : HostServer) (call : st = .lastLeave pid) (at_ : h.servers.get pid = some p)
      (listens : p.phase = .listening) (eq : h' = { h with servers := h.servers.set pid { p with phase := .ending } })
  /-- a server crashes -/
  | crash (pid : Nat) (call : st = .crash pid) (eq : h' = h.gone pid)
  /-- somebody makes a file or a directory -/
  | make (dir : FsPath) (name : Str) (node : Node) (call : st = .make dir name node) (dirs : h.isDir dir = true)
      (new : h.fs.has (dir ++ [name]) = false) (plain : ∀ q, node ≠ .socket q)
      (eq : h' = { h with fs := h.fs.set (dir ++ [name]) node })
  /-- somebody removes a file or an empty directory -/
  | remove (path : FsPath) (call : st = .remove path)
      (empty : h.fs.get path = some .dir → ∀ n, h.fs.get (path ++ [n]) = none) (eq : h' = { h with fs := h.fs.del path })

theorem goServer_next (root : FsPath) (h : Host) (pid : Nat) (p : HostServer) : (goServer root h pid p).next = h.next := by
  unfold goServer
  split <;> split <;> (repeat' split) <;> first | rfl | exact gone_next _ _

theorem goServer_clients (root : FsPath) (h : Host) (pid : Nat) (p : HostServer) :
    (goServer root h pid p).clients = h.clients := by
  unfold goServer
  split <;> split <;> (repeat' split) <;> first | rfl | exact gone_clients _ _

theorem entries_none {fs : Assoc FsPath Node} {p : FsPath} : (entries fs p).isEmpty = true ↔ ∀ n, fs.get (p ++ [n]) = none := by
  rw [List.isEmpty_iff, List.eq_nil_iff_forall_not_mem]
  refine forall_congr' fun n => ?_
  rw [mem_entries, ← Assoc.has_false, Bool.not_eq_true]

theorem step_moved (root : FsPath) (h : Host) (st : Step) : h.next ≤ (step root h st).next ∧ Moved root h st (step root h st) := by
  cases st with
  | server place => exact ⟨Nat.le_succ _, .spawn place rfl rfl rfl (Nat.lt_succ_self _) (.inl rfl)⟩
  | client place => exact ⟨Nat.le_succ _, .idle rfl rfl rfl⟩
  | crash pid => exact ⟨Nat.le_of_eq (gone_next _ _).symm, .crash pid rfl rfl⟩
  | lastLeave pid =>
    cases hs : h.servers.get pid with
    | none =>
      have e : step root h (.lastLeave pid) = h := by simp only [step, hs]
      rw [e]; exact ⟨Nat.le_refl _, .idle rfl rfl rfl⟩
    | some p =>
      by_cases hp : p.phase = .listening
      · have e : step root h (.lastLeave pid) = { h with servers := h.servers.set pid { p with phase := .ending } } := by
          simp only [step, hs, if_pos hp]
        rw [e]
        exact ⟨Nat.le_refl _, .leave pid p rfl hs hp rfl⟩
      · have e : step root h (.lastLeave pid) = h := by simp only [step, hs, if_neg hp]
        rw [e]; exact ⟨Nat.le_refl _, .idle rfl rfl rfl⟩
  | make dir name node =>
    have same : ∀ h', h' = h → h.next ≤ h'.next ∧ Moved root h (.make dir name node) h' := by
      rintro _ rfl; exact ⟨Nat.le_refl _, .idle rfl rfl rfl⟩
    unfold step
    cases node with
    | socket q => exact same _ rfl
    | dir =>
      dsimp only
      split
      · rename_i hc
        simp only [Bool.and_eq_true, Bool.not_eq_true'] at hc
        exact ⟨Nat.le_refl _, .make dir name .dir rfl hc.1 hc.2 (by intro q e; cases e) rfl⟩
      · exact same _ rfl
    | file =>
      dsimp only
      split
      · rename_i hc
        simp only [Bool.and_eq_true, Bool.not_eq_true'] at hc
        exact ⟨Nat.le_refl _, .make dir name .file rfl hc.1 hc.2 (by intro q e; cases e) rfl⟩
      · exact same _ rfl
  | remove path =>
    unfold step
    dsimp only
    split
    · exact ⟨Nat.le_refl _, .idle rfl rfl rfl⟩
    · rename_i hc
      refine ⟨Nat.le_refl _, .remove path rfl (fun hd => ?_) rfl⟩
      have : (entries h.fs path).isEmpty = true := by
        cases he : (entries h.fs path).isEmpty with
        | true => rfl
        | false => exact absurd (by simp [hd, he]) hc
      exact entries_none.1 this
  | go pid =>
    cases hs : h.servers.get pid with
    | some p =>
      have e : step root h (.go pid) = goServer root h pid p := by simp only [step, hs]
      rw [e]
      exact ⟨Nat.le_of_eq (goServer_next ..).symm, .server pid p rfl hs rfl⟩
    | none =>
      cases hc : h.clients.get pid with
      | none =>
        have e : step root h (.go pid) = h := by simp only [step, hs, hc]
        rw [e]; exact ⟨Nat.le_refl _, .idle rfl rfl rfl⟩
      | some c =>
        have e : step root h (.go pid) = goClient root h pid c := by simp only [step, hs, hc]
        rw [e]
        unfold goClient
        split
        · split
          · exact ⟨Nat.le_refl _, .idle rfl rfl rfl⟩
          · rename_i d n hp
            split
            · exact ⟨Nat.le_refl _, .idle rfl rfl rfl⟩
            · rename_i hne
              refine ⟨Nat.le_succ _, .spawn (.socket root n) rfl rfl rfl (Nat.lt_succ_self _)
                (.inr ⟨pid, c, d, n, rfl, hs, hc, hp, ?_, rfl⟩)⟩
              simpa using hne
        · split
          · split <;> exact ⟨Nat.le_refl _, .idle rfl rfl rfl⟩
          · exact ⟨Nat.le_refl _, .idle rfl rfl rfl⟩
        · split <;> exact ⟨Nat.le_refl _, .idle rfl rfl rfl⟩
        · exact ⟨Nat.le_refl _, .idle rfl rfl rfl⟩
        · exact ⟨Nat.le_refl _, .idle rfl rfl rfl⟩

/-- What the call of a server of an address does. -/
theorem goServer_tcp {root : FsPath} {h : Host} {pid : Nat} {p : HostServer} {a : Addr} (hp : p.place = .tcp a) :
    (p.phase = .starting ∧ a.port = 0 ∧
      goServer root h pid p = { h with servers := h.servers.set pid { p with phase := .listening, told := true } }) ∨
    (p.phase = .starting ∧ a.port ≠ 0 ∧ h.ports.get a ≠ none ∧ goServer root h pid p = h.gone pid) ∨
    (p.phase = .starting ∧ a.port ≠ 0 ∧ h.ports.get a = none ∧
      goServer root h pid p = { h with ports := h.ports.set a pid,
                                       servers := h.servers.set pid { p with phase := .listening, told := true } }) ∨
    (p.phase = .listening ∧ goServer root h pid p = h) ∨
    (p.phase ≠ .starting ∧ p.phase ≠ .listening ∧ goServer root h pid p = h.gone pid) := by
  unfold goServer
  rw [hp]
  dsimp only
  cases hph : p.phase with
  | starting =>
    dsimp only
    by_cases h0 : a.port = 0
    · rw [if_pos h0]; simp [h0]
    · rw [if_neg h0]
      cases hh : h.ports.has a with
      | true =>
        rw [if_pos rfl]
        have : h.ports.get a ≠ none := fun e => by rw [Assoc.has_false.2 e] at hh; cases hh
        simp [h0, this]
      | false =>
        have := Assoc.has_false.1 hh
        simp [h0, this]
  | listening => simp
  | ready => simp
  | ending => simp
  | unlinked => simp
  | removing => simp

/-- What the call of a server of a socket does. -/
theorem goServer_socket {root : FsPath} {h : Host} {pid : Nat} {p : HostServer} {d : FsPath} {n : Str} (hp : p.place = .socket d n) :
    (p.phase = .starting ∧ h.pathExists d = true ∧
      goServer root h pid p = { h with servers := h.servers.set pid { p with phase := .ready } }) ∨
    (p.phase = .starting ∧ h.pathExists d = false ∧ (∀ q ∈ prefixes d, h.fs.has q = false ∨ h.isDir q = true) ∧
      goServer root h pid p = { h with fs := makeDirs h.fs d, servers := h.servers.set pid { p with phase := .ready } }) ∨
    (p.phase = .starting ∧ h.pathExists d = false ∧
      goServer root h pid p = { h with servers := h.servers.set pid { p with phase := .ending } }) ∨
    (p.phase = .ready ∧ h.isDir d = true ∧ h.fs.get (d ++ [n]) = none ∧
      goServer root h pid p = { h with fs := h.fs.set (d ++ [n]) (.socket pid)
                                       servers := h.servers.set pid { p with phase := .listening, told := true } }) ∨
    (p.phase = .ready ∧ (h.isDir d = false ∨ h.fs.get (d ++ [n]) ≠ none) ∧
      goServer root h pid p = { h with servers := h.servers.set pid { p with phase := .ending } }) ∨
    (p.phase = .listening ∧ goServer root h pid p = h) ∨
    (p.phase = .ending ∧ (h.fs.get (d ++ [n]) = none ∨ h.fs.get (d ++ [n]) = some .dir) ∧ goServer root h pid p = h.gone pid) ∨
    (p.phase = .ending ∧ (∃ node, h.fs.get (d ++ [n]) = some node ∧ node ≠ .dir) ∧
      goServer root h pid p = { h with fs := h.fs.del (d ++ [n]), servers := h.servers.set pid { p with phase := .unlinked } }) ∨
    (p.phase = .unlinked ∧ h.list root = [] ∧
      goServer root h pid p = { h with servers := h.servers.set pid { p with phase := .removing } }) ∨
    (p.phase = .unlinked ∧ h.list root ≠ [] ∧ goServer root h pid p = h.gone pid) ∨
    (p.phase = .removing ∧ h.fs.get d = some .dir ∧ (∀ m, h.fs.get (d ++ [m]) = none) ∧
      goServer root h pid p = { h.gone pid with fs := h.fs.del d }) ∨
    (p.phase = .removing ∧ (h.fs.get d ≠ some .dir ∨ ∃ m, h.fs.get (d ++ [m]) ≠ none) ∧ goServer root h pid p = h.gone pid) := by
  unfold goServer
  rw [hp]
  dsimp only
  cases hph : p.phase with
  | starting =>
    dsimp only
    cases he : h.pathExists d with
    | true => simp
    | false =>
      simp only [Bool.false_eq_true, if_false]
      split
      · rename_i hc
        rw [List.all_eq_true] at hc
        have hall : ∀ q ∈ prefixes d, h.fs.has q = false ∨ h.isDir q = true := fun q hq => by simpa using hc q hq
        exact .inr (.inl ⟨trivial, by simp, hall, rfl⟩)
      · exact .inr (.inr (.inl ⟨trivial, by simp, rfl⟩))
  | ready =>
    dsimp only
    cases hi : h.isDir d with
    | false => simp
    | true =>
      cases hg : h.fs.get (d ++ [n]) with
      | none => simp [Assoc.has_false.2 hg]
      | some x => simp [Assoc.has_iff.2 ⟨_, hg⟩]
  | listening => simp
  | ending =>
    dsimp only
    cases hg : h.fs.get (d ++ [n]) with
    | none => simp
    | some x => cases x <;> simp
  | unlinked =>
    dsimp only
    by_cases hl : h.list root = []
    · rw [if_pos hl]; simp [hl]
    · rw [if_neg hl]; simp [hl]
  | removing =>
    dsimp only
    by_cases hg : h.fs.get d = some .dir
    · cases he : (entries h.fs d).isEmpty with
      | true =>
        have := entries_none.1 he
        simp [hg, this]
      | false =>
        have : ∃ m, h.fs.get (d ++ [m]) ≠ none := by
          apply Classical.byContradiction
          intro hn
          rw [entries_none.2 (fun n => Classical.byContradiction fun x => hn ⟨n, x⟩)] at he
          cases he
        simp [hg, this]
    · simp [hg]

theorem host_run_append (root : FsPath) (h : Host) (a b : List Step) : run root h (a ++ b) = run root (run root h a) b := by
  simp [run, List.foldl_append]

theorem host_run_invariant {root : FsPath} {P : Host → Prop} {ok : Step → Prop} (hstep : ∀ h st, P h → ok st → P (step root h st))
    {steps : List Step} : ∀ {h : Host}, P h → (∀ st ∈ steps, ok st) → P (run root h steps) := by
  induction steps with
  | nil => intro h hP _; exact hP
  | cons st steps ih =>
    intro h hP hok
    exact ih (hstep h st hP (hok st List.mem_cons_self)) fun s hs => hok s (List.mem_cons_of_mem _ hs)

end Host
end Ced
