import Verif.Props.HostTcp

/-!
# C98: sessions at nested and absolute paths, and what ced does to the files of others
-/

namespace Ced.Props

open SessionName Host

/-- Each file is in a directory; a socket belongs to the server of its place, if it runs. -/
structure Orderly (h : Host) : Prop where
  below : ∀ q p, h.servers.get q = some p → q < h.next
  up : ∀ p node, h.fs.get p = some node → p ≠ [] ∧ h.isDir p.dropLast = true
  socket : ∀ p q, h.fs.get p = some (.socket q) → q < h.next ∧
    ∀ s, h.servers.get q = some s → (∃ d n, p = d ++ [n] ∧ s.place = .socket d n) ∧ (s.phase = .listening ∨ s.phase = .ending)

theorem isDir_iff {h : Host} {p : FsPath} : h.isDir p = true ↔ p = [] ∨ h.fs.get p = some .dir := by
  simp [isDir]

/-- A step of the file system that removes one path with nothing below it keeps the order of directories. -/
theorem up_del {h : Host} (ok : ∀ p node, h.fs.get p = some node → p ≠ [] ∧ h.isDir p.dropLast = true) {x : FsPath}
    (hx : ∀ n, h.fs.get (x ++ [n]) = none) :
    ∀ p node, (h.fs.del x).get p = some node → p ≠ [] ∧ (p.dropLast = [] ∨ (h.fs.del x).get p.dropLast = some .dir) := by
  intro p node hg
  rw [Assoc.get_del] at hg
  split at hg
  · cases hg
  · obtain ⟨h1, h2⟩ := ok p node hg
    refine ⟨h1, ?_⟩
    rcases isDir_iff.1 h2 with h2 | h2
    · exact .inl h2
    · right
      rw [Assoc.get_del_ne, h2]
      intro e
      have : p = x ++ [p.getLast h1] := by rw [← e]; exact (List.dropLast_concat_getLast h1).symm
      rw [this, hx] at hg
      cases hg

theorem up_set {h : Host} (ok : ∀ p node, h.fs.get p = some node → p ≠ [] ∧ h.isDir p.dropLast = true) {d : FsPath} {n : Str} {v : Node}
    (hd : h.isDir d = true) (hn : h.fs.get (d ++ [n]) = none) :
    ∀ p node, (h.fs.set (d ++ [n]) v).get p = some node →
      p ≠ [] ∧ (p.dropLast = [] ∨ (h.fs.set (d ++ [n]) v).get p.dropLast = some .dir) := by
  have keep : ∀ q, (q = [] ∨ h.fs.get q = some .dir) → (q = [] ∨ (h.fs.set (d ++ [n]) v).get q = some .dir) := by
    rintro q (e | e)
    · exact .inl e
    · right
      rw [Assoc.get_set_ne, e]
      rintro rfl
      rw [hn] at e
      cases e
  intro p node hg
  rw [Assoc.get_set] at hg
  split at hg
  · rename_i e
    rw [e]
    exact ⟨by simp, by rw [List.dropLast_concat]; exact keep d (isDir_iff.1 hd)⟩
  · obtain ⟨h1, h2⟩ := ok p node hg
    exact ⟨h1, keep _ (isDir_iff.1 h2)⟩

theorem up_make {h : Host} (ok : ∀ p node, h.fs.get p = some node → p ≠ [] ∧ h.isDir p.dropLast = true) {d : FsPath}
    (hall : ∀ q ∈ prefixes d, h.fs.has q = false ∨ h.isDir q = true) :
    ∀ p node, (makeDirs h.fs d).get p = some node →
      p ≠ [] ∧ (p.dropLast = [] ∨ (makeDirs h.fs d).get p.dropLast = some .dir) := by
  intro p node hg
  rw [get_makeDirs] at hg
  split at hg
  · rename_i hc
    refine ⟨hc.2.1, ?_⟩
    by_cases e : p.dropLast = []
    · exact .inl e
    · right
      have hpre : p.dropLast <+: d := (List.dropLast_prefix p).trans hc.2.2
      rw [get_makeDirs]
      split
      · rfl
      · rename_i hn
        rcases hall p.dropLast (mem_prefixes.2 ⟨e, hpre⟩) with h1 | h1
        · exact absurd ⟨h1, e, hpre⟩ hn
        · rcases isDir_iff.1 h1 with h1 | h1
          · exact absurd h1 e
          · exact h1
  · obtain ⟨h1, h2⟩ := ok p node hg
    refine ⟨h1, ?_⟩
    rcases isDir_iff.1 h2 with h2 | h2
    · exact .inl h2
    · right
      rw [get_makeDirs, if_neg, h2]
      rintro ⟨h3, _⟩
      rw [Assoc.has_iff.2 ⟨_, h2⟩] at h3
      cases h3

/-- Nothing is below what is not a directory. -/
theorem leaf {h : Host} (ok : ∀ p node, h.fs.get p = some node → p ≠ [] ∧ h.isDir p.dropLast = true) {x : FsPath} (h0 : x ≠ [])
    (hx : h.fs.get x ≠ some .dir) (n : Str) : h.fs.get (x ++ [n]) = none := by
  cases hg : h.fs.get (x ++ [n]) with
  | none => rfl
  | some node =>
    have h2 := (ok _ _ hg).2
    rw [List.dropLast_concat] at h2
    rcases isDir_iff.1 h2 with h2 | h2
    · exact absurd h2 h0
    · exact absurd h2 hx

theorem orderly_step {root : FsPath} {h : Host} (ok : Orderly h) (st : Step) : Orderly (step root h st) := by
  obtain ⟨hn, hm⟩ := step_moved root h st
  -- the server of a process changes
  have below_set : ∀ pid p v, h.servers.get pid = some p → ∀ q s, (h.servers.set pid v).get q = some s → q < h.next := by
    intro pid p v hp q s hq
    rw [Assoc.get_set] at hq
    split at hq
    · rename_i e; rw [e]; exact ok.below pid p hp
    · exact ok.below q s hq
  -- the sockets when the phase of a server changes
  have sock_set : ∀ pid (p v : HostServer), h.servers.get pid = some p → v.place = p.place →
      (v.phase = .listening ∨ v.phase = .ending ∨ ∀ x, h.fs.get x ≠ some (.socket pid)) →
      ∀ x q, h.fs.get x = some (.socket q) → q < h.next ∧ ∀ s, (h.servers.set pid v).get q = some s →
        (∃ d n, x = d ++ [n] ∧ s.place = .socket d n) ∧ (s.phase = .listening ∨ s.phase = .ending) := by
    intro pid p v hp hv hph x q hx
    obtain ⟨h1, h2⟩ := ok.socket x q hx
    refine ⟨h1, fun s hs => ?_⟩
    rw [Assoc.get_set] at hs
    split at hs
    · rename_i e
      cases hs
      rw [e] at hx h2
      obtain ⟨h3, h4⟩ := h2 p hp
      refine ⟨by rw [hv]; exact h3, ?_⟩
      rcases hph with hph | hph | hph
      · exact .inl hph
      · exact .inr hph
      · exact absurd hx (hph x)
    · exact h2 s hs
  have below_gone : ∀ pid q s, (h.gone pid).servers.get q = some s → q < h.next := by
    intro pid q s hq
    rw [gone_servers] at hq
    split at hq
    · cases hq
    · exact ok.below q s hq
  have sock_gone : ∀ pid x q, h.fs.get x = some (.socket q) → q < h.next ∧ ∀ s, (h.gone pid).servers.get q = some s →
        (∃ d n, x = d ++ [n] ∧ s.place = .socket d n) ∧ (s.phase = .listening ∨ s.phase = .ending) := by
    intro pid x q hx
    obtain ⟨h1, h2⟩ := ok.socket x q hx
    refine ⟨h1, fun s hs => ?_⟩
    rw [gone_servers] at hs
    split at hs
    · cases hs
    · exact h2 s hs
  have gone : ∀ pid, Orderly (h.gone pid) := by
    intro pid
    refine ⟨by rw [gone_next]; exact below_gone pid, ?_, ?_⟩
    · unfold isDir; rw [gone_fs]; exact ok.up
    · rw [gone_fs, gone_next]; exact sock_gone pid
  -- a server that does not listen and has no socket yet has none
  have none_of : ∀ pid p, h.servers.get pid = some p → p.phase ≠ .listening → p.phase ≠ .ending → ∀ x, h.fs.get x ≠ some (.socket pid) := by
    intro pid p hp h1 h2 x hx
    rcases ((ok.socket x pid hx).2 p hp).2 with e | e
    · exact h1 e
    · exact h2 e
  have back : ∀ fs' : Assoc FsPath Node, (∀ p node, fs'.get p = some node → p ≠ [] ∧ (p.dropLast = [] ∨ fs'.get p.dropLast = some .dir)) →
      ∀ (h' : Host), h'.fs = fs' → ∀ p node, h'.fs.get p = some node → p ≠ [] ∧ h'.isDir p.dropLast = true := by
    rintro fs' hu h' rfl p node hg
    exact ⟨(hu p node hg).1, isDir_iff.2 (hu p node hg).2⟩
  have sub : ∀ y x q, (h.fs.del y).get x = some (.socket q) → h.fs.get x = some (.socket q) := by
    intro y x q hg
    rw [Assoc.get_del] at hg
    split at hg
    · cases hg
    · exact hg
  cases hm with
  | idle fs ports servers =>
    refine ⟨?_, ?_, ?_⟩
    · rw [servers]; exact fun q p hq => Nat.lt_of_lt_of_le (ok.below q p hq) hn
    · unfold isDir; rw [fs]; exact ok.up
    · rw [fs, servers]
      intro x q hx
      exact ⟨Nat.lt_of_lt_of_le (ok.socket x q hx).1 hn, (ok.socket x q hx).2⟩
  | spawn place fs ports servers next why =>
    refine ⟨?_, ?_, ?_⟩
    · rw [servers]
      intro q p hq
      rw [Assoc.get_set] at hq
      split at hq
      · rename_i e; rw [e]; exact next
      · exact Nat.lt_trans (ok.below q p hq) next
    · unfold isDir; rw [fs]; exact ok.up
    · rw [fs, servers]
      intro x q hx
      obtain ⟨h1, h2⟩ := ok.socket x q hx
      refine ⟨Nat.lt_trans h1 next, fun s hs => ?_⟩
      rw [Assoc.get_set_ne _ (Nat.ne_of_lt h1)] at hs
      exact h2 s hs
  | server pid p call at_ eq =>
    rw [eq]
    cases hpl : p.place with
    | tcp a =>
      have none : ∀ x, h.fs.get x ≠ some (.socket pid) := by
        intro x hx
        obtain ⟨⟨d, n, _, e⟩, _⟩ := (ok.socket x pid hx).2 p at_
        rw [hpl] at e
        cases e
      rcases goServer_tcp (root := root) (h := h) (pid := pid) hpl with ⟨_, _, e⟩ | ⟨_, _, _, e⟩ | ⟨_, _, _, e⟩ | ⟨_, e⟩ | ⟨_, _, e⟩ <;> rw [e]
      · exact ⟨below_set pid p _ at_, ok.up, sock_set pid p _ at_ (by rfl) (.inl rfl)⟩
      · exact gone pid
      · exact ⟨below_set pid p _ at_, ok.up, sock_set pid p _ at_ (by rfl) (.inl rfl)⟩
      · exact ok
      · exact gone pid
    | socket d n =>
      rcases goServer_socket (root := root) (h := h) (pid := pid) hpl with ⟨hph, _, e⟩ | ⟨hph, _, hall, e⟩ | ⟨hph, _, e⟩ | ⟨hph, hd, hf, e⟩ |
        ⟨hph, _, e⟩ | ⟨_, e⟩ | ⟨_, _, e⟩ | ⟨hph, ⟨node, hg, hnode⟩, e⟩ | ⟨hph, _, e⟩ | ⟨_, _, e⟩ | ⟨hph, hg, hno, e⟩ | ⟨_, _, e⟩ <;> rw [e]
      · exact ⟨below_set pid p _ at_, ok.up, sock_set pid p _ at_ (by rfl) (.inr (.inr (none_of pid p at_ (by simp [hph]) (by simp [hph]))))⟩
      · refine ⟨below_set pid p _ at_, back _ (up_make ok.up hall) _ rfl, ?_⟩
        intro x q hx
        have hx : (makeDirs h.fs d).get x = some (.socket q) := hx
        rw [get_makeDirs] at hx
        split at hx
        · cases hx
        · exact sock_set pid p _ at_ (by rfl) (.inr (.inr (none_of pid p at_ (by simp [hph]) (by simp [hph])))) x q hx
      · exact ⟨below_set pid p _ at_, ok.up, sock_set pid p _ at_ (by rfl) (.inr (.inl rfl))⟩
      · refine ⟨below_set pid p _ at_, back _ (up_set ok.up hd hf) _ rfl, ?_⟩
        intro x q hx
        have hx : (h.fs.set (d ++ [n]) (.socket pid)).get x = some (.socket q) := hx
        rw [Assoc.get_set] at hx
        split at hx
        · rename_i e2
          cases hx
          refine ⟨ok.below pid p at_, fun s hs => ?_⟩
          have hs : (h.servers.set pid { p with phase := .listening, told := true }).get pid = some s := hs
          rw [Assoc.get_set_self] at hs
          cases hs
          exact ⟨⟨d, n, e2, hpl⟩, .inl rfl⟩
        · exact sock_set pid p _ at_ (by rfl) (.inl rfl) x q hx
      · exact ⟨below_set pid p _ at_, ok.up, sock_set pid p _ at_ (by rfl) (.inr (.inl rfl))⟩
      · exact ok
      · exact gone pid
      · have hleaf : ∀ m, h.fs.get (d ++ [n] ++ [m]) = none :=
          leaf ok.up (by simp) (by rw [hg]; intro e; cases e; exact hnode rfl)
        refine ⟨below_set pid p _ at_, back _ (up_del ok.up hleaf) _ rfl, ?_⟩
        intro x q hx
        have hx : (h.fs.del (d ++ [n])).get x = some (.socket q) := hx
        obtain ⟨h1, h2⟩ := ok.socket x q (sub _ x q hx)
        refine ⟨h1, fun s hs => ?_⟩
        have hs : (h.servers.set pid _).get q = some s := hs
        rw [Assoc.get_set] at hs
        split at hs
        · rename_i e2
          rw [e2] at h2
          obtain ⟨⟨d', n', e3, e4⟩, _⟩ := h2 p at_
          rw [hpl] at e4
          cases e4
          rw [e3, Assoc.get_del_self] at hx
          cases hx
        · exact h2 s hs
      · exact ⟨below_set pid p _ at_, ok.up, sock_set pid p _ at_ (by rfl) (.inr (.inr (none_of pid p at_ (by simp [hph]) (by simp [hph]))))⟩
      · exact gone pid
      · refine ⟨by show ∀ q s, (h.gone pid).servers.get q = some s → q < (h.gone pid).next; rw [gone_next]; exact below_gone pid,
          back _ (up_del ok.up hno) _ rfl, ?_⟩
        intro x q hx
        have hx : (h.fs.del d).get x = some (.socket q) := hx
        show q < (h.gone pid).next ∧ _
        rw [gone_next]
        exact sock_gone pid x q (sub _ x q hx)
      · exact gone pid
  | leave pid p call at_ listens eq =>
    rw [eq]
    exact ⟨below_set pid p _ at_, ok.up, sock_set pid p _ at_ (by rfl) (.inr (.inl rfl))⟩
  | crash pid call eq => rw [eq]; exact gone pid
  | make dir name node call dirs new plain eq =>
    rw [eq]
    refine ⟨ok.below, back _ (up_set ok.up dirs (Assoc.has_false.1 new)) _ rfl, ?_⟩
    intro x q hx
    have hx : (h.fs.set (dir ++ [name]) node).get x = some (.socket q) := hx
    rw [Assoc.get_set] at hx
    split at hx
    · exact absurd (Option.some.inj hx) (plain q)
    · exact ok.socket x q hx
  | remove path call empty eq =>
    rw [eq]
    have hleaf : ∀ m, h.fs.get (path ++ [m]) = none ∨ path = [] := by
      intro m
      by_cases h0 : path = []
      · exact .inr h0
      · left
        by_cases hd : h.fs.get path = some .dir
        · exact empty hd m
        · exact leaf ok.up h0 hd m
    by_cases h0 : path = []
    · have e : ∀ p, (h.fs.del path).get p = h.fs.get p := by
        intro p
        rw [Assoc.get_del]
        split
        · rename_i e
          cases hg : h.fs.get p with
          | none => rfl
          | some node => exact absurd (e.trans h0) (ok.up p node hg).1
        · rfl
      refine ⟨ok.below, ?_, ?_⟩
      · intro p node hg
        have hg : (h.fs.del path).get p = some node := hg
        rw [e] at hg
        refine ⟨(ok.up p node hg).1, ?_⟩
        have := (ok.up p node hg).2
        rw [isDir_iff] at this ⊢
        show _ ∨ (h.fs.del path).get _ = _
        rw [e]; exact this
      · intro x q hx
        exact ok.socket x q (sub _ x q hx)
    · refine ⟨ok.below, back _ (up_del ok.up fun m => (hleaf m).resolve_right h0) _ rfl, ?_⟩
      intro x q hx
      exact ok.socket x q (sub _ x q hx)

theorem orderly_hosted {root : FsPath} {h : Host} (hr : Hosted root h) : Orderly h := by
  obtain ⟨fs, steps, hf, rfl⟩ := hr
  refine host_run_invariant (P := Orderly) (ok := fun _ => True) (fun h st hP _ => orderly_step hP st) ?_ fun _ _ => trivial
  refine ⟨fun q p hq => (by cases hq), fun p node hg => ⟨(hf p node hg).1, isDir_iff.2 (hf p node hg).2.1⟩, fun p q hg => ?_⟩
  rw [(hf p _ hg).2.2 q rfl]
  exact ⟨Nat.zero_lt_one, fun s hs => (by cases hs)⟩

/-- C98: a system call of a server at a path changes nothing in the file system but this: it makes the directories that are
missing on the way to its path, it makes its socket where nothing was, it removes what is at its path unless that is a
directory, it removes the directory of its path when it is empty. -/
theorem C98_touches {root : FsPath} {h : Host} {pid : Nat} {p : HostServer} {d : FsPath} {n : Str} (hs : h.servers.get pid = some p)
    (hpl : p.place = .socket d n) (x : FsPath) :
    (step root h (.go pid)).fs.get x = h.fs.get x ∨
    (x ≠ [] ∧ x <+: d ∧ h.fs.get x = none ∧ (step root h (.go pid)).fs.get x = some .dir) ∨
    (x = d ++ [n] ∧ h.fs.get x = none ∧ (step root h (.go pid)).fs.get x = some (.socket pid)) ∨
    (x = d ++ [n] ∧ h.fs.get x ≠ some .dir ∧ (step root h (.go pid)).fs.get x = none) ∨
    (x = d ∧ h.fs.get x = some .dir ∧ (∀ m, h.fs.get (d ++ [m]) = none) ∧ (step root h (.go pid)).fs.get x = none) := by
  have e0 : step root h (.go pid) = goServer root h pid p := by simp only [step, hs]
  rw [e0]
  rcases goServer_socket (root := root) (h := h) (pid := pid) hpl with ⟨_, _, e⟩ | ⟨_, _, hall, e⟩ | ⟨_, _, e⟩ | ⟨_, hd, hf, e⟩ |
    ⟨_, _, e⟩ | ⟨_, e⟩ | ⟨_, _, e⟩ | ⟨_, ⟨node, hg, hnode⟩, e⟩ | ⟨_, _, e⟩ | ⟨_, _, e⟩ | ⟨_, hg, hno, e⟩ | ⟨_, _, e⟩ <;> rw [e]
  · exact .inl rfl
  · show (makeDirs h.fs d).get x = _ ∨ _
    by_cases hc : h.fs.has x = false ∧ x ≠ [] ∧ x <+: d
    · exact .inr (.inl ⟨hc.2.1, hc.2.2, Assoc.has_false.1 hc.1, by
        show (makeDirs h.fs d).get x = _
        rw [get_makeDirs, if_pos hc]⟩)
    · left; rw [get_makeDirs, if_neg hc]
  · exact .inl rfl
  · by_cases ex : x = d ++ [n]
    · subst ex
      exact .inr (.inr (.inl ⟨rfl, hf, Assoc.get_set_self ..⟩))
    · exact .inl (Assoc.get_set_ne _ ex)
  · exact .inl rfl
  · exact .inl rfl
  · exact .inl (by rw [gone_fs])
  · by_cases ex : x = d ++ [n]
    · subst ex
      exact .inr (.inr (.inr (.inl ⟨rfl, by rw [hg]; intro e; cases e; exact hnode rfl, Assoc.get_del_self ..⟩)))
    · exact .inl (Assoc.get_del_ne ex)
  · exact .inl rfl
  · exact .inl (by rw [gone_fs])
  · by_cases ex : x = d
    · subst ex
      exact .inr (.inr (.inr (.inr ⟨rfl, hg, hno, Assoc.get_del_self ..⟩)))
    · exact .inl (Assoc.get_del_ne ex)
  · exact .inl (by rw [gone_fs])

/-- C98: clients change nothing in the file system. -/
theorem C98_clients {root : FsPath} {h : Host} {pid : Nat} (hs : h.servers.get pid = none) :
    (step root h (.go pid)).fs = h.fs := by
  cases (step_moved root h (.go pid)).2 with
  | idle fs ports servers => exact fs
  | spawn place fs ports servers next why => exact fs
  | server q p call at_ eq => cases call; rw [hs] at at_; cases at_
  | leave q p call at_ listens eq => cases call
  | crash q call eq => cases call
  | make dir name node call dirs new plain eq => cases call
  | remove path call empty eq => cases call

/-- A file of somebody, and no server for its path. -/
structure Kept98 (d : FsPath) (n : Str) (h : Host) : Prop where
  file : h.fs.get (d ++ [n]) = some .file
  none : ∀ q p, h.servers.get q = some p → p.place ≠ .socket d n

theorem places_step {root : FsPath} {h : Host} {place : Place} (hu : ∀ q p, h.servers.get q = some p → p.place ≠ place) {st : Step}
    (hst : st ≠ .server place) (hclient : ∀ n, place ≠ .socket root n) :
    ∀ q p, (step root h st).servers.get q = some p → p.place ≠ place := by
  have set : ∀ pid p v, h.servers.get pid = some p → v.place = p.place → ∀ q p', (h.servers.set pid v).get q = some p' → p'.place ≠ place := by
    intro pid p v hp hv q p' hq
    rw [Assoc.get_set] at hq
    split at hq
    · cases hq; rw [hv]; exact hu pid p hp
    · exact hu q p' hq
  have gone : ∀ pid, ∀ q p', (h.gone pid).servers.get q = some p' → p'.place ≠ place := by
    intro pid q p' hq
    rw [gone_servers] at hq
    split at hq
    · cases hq
    · exact hu q p' hq
  cases (step_moved root h st).2 with
  | idle fs ports servers => rw [servers]; exact hu
  | spawn pl fs ports servers next why =>
    intro q p hq
    rw [servers, Assoc.get_set] at hq
    split at hq
    · cases hq
      rcases why with rfl | ⟨_, _, _, m, _, _, _, _, _, rfl⟩
      · intro (e : pl = _); exact hst (by rw [e])
      · intro (e : Place.socket _ _ = _); exact hclient m e.symm
    · exact hu q p hq
  | server pid p call at_ eq =>
    rw [eq]
    cases hpl : p.place with
    | tcp b =>
      rcases goServer_tcp (root := root) (h := h) (pid := pid) hpl with ⟨_, _, e⟩ | ⟨_, _, _, e⟩ | ⟨_, _, _, e⟩ | ⟨_, e⟩ | ⟨_, _, e⟩ <;> rw [e]
      · exact set pid p _ at_ (by rfl)
      · exact gone pid
      · exact set pid p _ at_ (by rfl)
      · exact hu
      · exact gone pid
    | socket d n =>
      rcases goServer_socket (root := root) (h := h) (pid := pid) hpl with ⟨_, _, e⟩ | ⟨_, _, _, e⟩ | ⟨_, _, e⟩ | ⟨_, _, _, e⟩ |
        ⟨_, _, e⟩ | ⟨_, e⟩ | ⟨_, _, e⟩ | ⟨_, _, e⟩ | ⟨_, _, e⟩ | ⟨_, _, e⟩ | ⟨_, _, _, e⟩ | ⟨_, _, e⟩ <;> rw [e]
      all_goals first | exact set pid p _ at_ (by rfl) | exact gone pid | exact hu
  | leave pid p call at_ listens eq => rw [eq]; exact set pid p _ at_ (by rfl)
  | crash pid call eq => rw [eq]; exact gone pid
  | make dir name node call dirs new plain eq => rw [eq]; exact hu
  | remove path call empty eq => rw [eq]; exact hu

theorem kept98_step {root : FsPath} {d : FsPath} {n : Str} (hd : d ≠ root) {h : Host} (hk : Kept98 d n h) {st : Step}
    (h1 : st ≠ .server (.socket d n)) (h2 : st ≠ .remove (d ++ [n])) : Kept98 d n (step root h st) := by
  obtain ⟨hf, hu⟩ := hk
  refine ⟨?_, places_step hu h1 (fun m e => hd (by cases e; rfl))⟩
  cases (step_moved root h st).2 with
  | idle fs ports servers => rw [fs]; exact hf
  | spawn pl fs ports servers next why => rw [fs]; exact hf
  | server pid p call at_ eq =>
    rw [call]
    cases hpl : p.place with
    | tcp a =>
      have e0 : step root h (.go pid) = goServer root h pid p := by simp only [step, at_]
      rw [e0]
      rcases goServer_tcp (root := root) (h := h) (pid := pid) hpl with ⟨_, _, e⟩ | ⟨_, _, _, e⟩ | ⟨_, _, _, e⟩ | ⟨_, e⟩ | ⟨_, _, e⟩ <;> rw [e]
      all_goals first | exact hf | (rw [gone_fs]; exact hf)
    | socket d' n' =>
      have hne : d ++ [n] ≠ d' ++ [n'] := by
        intro e
        obtain ⟨e1, e2⟩ := List.append_inj' e rfl
        cases e2
        exact hu pid p at_ (by rw [hpl, e1])
      rcases C98_touches (root := root) at_ hpl (d ++ [n]) with e | ⟨_, _, e, _⟩ | ⟨e, _⟩ | ⟨e, _⟩ | ⟨_, e, _⟩
      · rw [e]; exact hf
      · rw [hf] at e; cases e
      · exact absurd e hne
      · exact absurd e hne
      · rw [hf] at e; cases e
  | leave pid p call at_ listens eq => rw [eq]; exact hf
  | crash pid call eq => rw [eq, gone_fs]; exact hf
  | make dir name node call dirs new plain eq =>
    rw [eq]
    show (h.fs.set (dir ++ [name]) node).get _ = _
    rw [Assoc.get_set_ne _ _, hf]
    intro e
    rw [← e, Assoc.has_iff.2 ⟨_, hf⟩] at new
    cases new
  | remove path call empty eq =>
    rw [eq]
    show (h.fs.del path).get _ = _
    rw [Assoc.get_del_ne _, hf]
    rintro rfl
    exact h2 call

/-- C98: a file outside the directory of sessions stays, whatever ced does, as long as nobody removes it and nobody starts a
server by hand for exactly its path. -/
theorem C98_files {root d : FsPath} {n : Str} (hd : d ≠ root) {h : Host} (hf : h.fs.get (d ++ [n]) = some .file)
    (hu : ∀ q p, h.servers.get q = some p → p.place ≠ .socket d n) {steps : List Step}
    (hst : ∀ st ∈ steps, st ≠ .server (.socket d n) ∧ st ≠ .remove (d ++ [n])) :
    (run root h steps).fs.get (d ++ [n]) = some .file :=
  (host_run_invariant (P := Kept98 d n) (ok := fun st => st ≠ .server (.socket d n) ∧ st ≠ .remove (d ++ [n]))
    (fun _ _ hk hok => kept98_step hd hk hok.1 hok.2) ⟨hf, hu⟩ hst).file

theorem go_eq {root : FsPath} {h : Host} {pid : Nat} {p : HostServer} (hs : h.servers.get pid = some p) :
    step root h (.go pid) = goServer root h pid p := by simp only [step, hs]

theorem set_set {K V : Type} [DecidableEq K] (m : Assoc K V) (k : K) (v w : V) : (m.set k v).set k w = m.set k w := by
  induction m with
  | nil => simp [Assoc.set]
  | cons x m ih =>
    obtain ⟨a, b⟩ := x
    simp only [Assoc.set]
    split
    · simp [Assoc.set]
    · rename_i h
      simp [Assoc.set, h, ih]

/-- The three first calls of a server at the path of a file that is there: the file is removed. -/
theorem C98_deletes_refuted {root : FsPath} {h : Host} (hr : Hosted root h) {d : FsPath} {n : Str}
    (hf : h.fs.get (d ++ [n]) = some .file) :
    (run root h [.server (.socket d n), .go h.next, .go h.next, .go h.next]).fs = h.fs.del (d ++ [n]) := by
  have ok := orderly_hosted hr
  have hd : h.isDir d = true := by
    have := (ok.up _ _ hf).2
    rwa [List.dropLast_concat] at this
  have hex : h.pathExists d = true := by
    rcases isDir_iff.1 hd with e | e
    · simp [pathExists, e]
    · simp [pathExists, Assoc.has_iff.2 ⟨_, e⟩]
  generalize hh : h.next = c
  have e1 : step root h (.server (.socket d n)) =
      { h with servers := h.servers.set c ⟨.socket d n, .starting, false⟩, next := c + 1 } := by
    show h.spawn _ = _
    simp only [spawn, hh]
  have e2 : step root { h with servers := h.servers.set c ⟨.socket d n, .starting, false⟩, next := c + 1 } (.go c) =
      { h with servers := h.servers.set c ⟨.socket d n, .ready, false⟩, next := c + 1 } := by
    rw [go_eq (Assoc.get_set_self ..)]
    have : ({ h with servers := h.servers.set c ⟨.socket d n, .starting, false⟩, next := c + 1 } : Host).pathExists d = true := hex
    simp only [goServer, this, if_true, set_set]
  have e3 : step root { h with servers := h.servers.set c ⟨.socket d n, .ready, false⟩, next := c + 1 } (.go c) =
      { h with servers := h.servers.set c ⟨.socket d n, .ending, false⟩, next := c + 1 } := by
    rw [go_eq (Assoc.get_set_self ..)]
    simp [goServer, set_set, Assoc.has_iff.2 ⟨_, hf⟩]
  have e4 : step root { h with servers := h.servers.set c ⟨.socket d n, .ending, false⟩, next := c + 1 } (.go c) =
      { h with fs := h.fs.del (d ++ [n]), servers := h.servers.set c ⟨.socket d n, .unlinked, false⟩, next := c + 1 } := by
    rw [go_eq (Assoc.get_set_self ..)]
    simp [goServer, set_set, hf]
  show (step root (step root (step root (step root h (.server (.socket d n))) (.go c)) (.go c)) (.go c)).fs = _
  rw [e1, e2, e3, e4]

/-- C98: a session at an absolute path, in a directory that is there and holds nothing, comes and goes while ced has no other
session: the directory is removed with the socket. -/
theorem C98_directory_refuted {root : FsPath} {h : Host} (hr : Hosted root h) {d : FsPath} {n : Str}
    (hd : h.fs.get d = some .dir) (hno : ∀ m, h.fs.get (d ++ [m]) = none) (hne : d ≠ root) (hl : h.list root = []) :
    (run root h [.server (.socket d n), .go h.next, .go h.next]).reaches (.socket d n) = some h.next ∧
    (run root h ([.server (.socket d n), .go h.next, .go h.next] ++ [.lastLeave h.next, .go h.next, .go h.next, .go h.next])).fs.get d = none := by
  have hdir : h.isDir d = true := isDir_iff.2 (.inr hd)
  have hex : h.pathExists d = true := by simp [pathExists, Assoc.has_iff.2 ⟨_, hd⟩]
  generalize hh : h.next = c
  have e1 : step root h (.server (.socket d n)) =
      { h with servers := h.servers.set c ⟨.socket d n, .starting, false⟩, next := c + 1 } := by
    show h.spawn _ = _
    simp only [spawn, hh]
  have e2 : step root { h with servers := h.servers.set c ⟨.socket d n, .starting, false⟩, next := c + 1 } (.go c) =
      { h with servers := h.servers.set c ⟨.socket d n, .ready, false⟩, next := c + 1 } := by
    rw [go_eq (Assoc.get_set_self ..)]
    have : ({ h with servers := h.servers.set c ⟨.socket d n, .starting, false⟩, next := c + 1 } : Host).pathExists d = true := hex
    simp only [goServer, this, if_true, set_set]
  have e3 : step root { h with servers := h.servers.set c ⟨.socket d n, .ready, false⟩, next := c + 1 } (.go c) =
      { h with fs := h.fs.set (d ++ [n]) (.socket c), servers := h.servers.set c ⟨.socket d n, .listening, true⟩, next := c + 1 } := by
    rw [go_eq (Assoc.get_set_self ..)]
    have : ({ h with servers := h.servers.set c ⟨.socket d n, .ready, false⟩, next := c + 1 } : Host).isDir d = true := hdir
    simp [goServer, set_set, Assoc.has_false.2 (hno n), this]
  have hrun : run root h [.server (.socket d n), .go c, .go c] =
      { h with fs := h.fs.set (d ++ [n]) (.socket c), servers := h.servers.set c ⟨.socket d n, .listening, true⟩, next := c + 1 } := by
    show step root (step root (step root h (.server (.socket d n))) (.go c)) (.go c) = _
    rw [e1, e2, e3]
  refine ⟨?_, ?_⟩
  · rw [hrun]
    simp [reaches]
  · rw [host_run_append, hrun]
    generalize hfs1 : (h.fs.set (d ++ [n]) (.socket c)).del (d ++ [n]) = fs1
    have hget : ∀ x, fs1.get x = h.fs.get x := by
      intro x
      rw [← hfs1, Assoc.get_del]
      split
      · rename_i e; rw [e, hno]
      · rename_i e; rw [Assoc.get_set_ne _ e]
    have e4 : step root { h with fs := h.fs.set (d ++ [n]) (.socket c), servers := h.servers.set c ⟨.socket d n, .listening, true⟩, next := c + 1 }
        (.lastLeave c) =
        { h with fs := h.fs.set (d ++ [n]) (.socket c), servers := h.servers.set c ⟨.socket d n, .ending, true⟩, next := c + 1 } := by
      simp [step, set_set]
    have e5 : step root { h with fs := h.fs.set (d ++ [n]) (.socket c), servers := h.servers.set c ⟨.socket d n, .ending, true⟩, next := c + 1 }
        (.go c) = { h with fs := fs1, servers := h.servers.set c ⟨.socket d n, .unlinked, true⟩, next := c + 1 } := by
      rw [go_eq (Assoc.get_set_self ..)]
      simp [goServer, set_set, hfs1]
    have hlist : ({ h with fs := fs1, servers := h.servers.set c ⟨.socket d n, .unlinked, true⟩, next := c + 1 } : Host).list root = [] := by
      unfold list at hl ⊢
      have : ({ h with fs := fs1, servers := h.servers.set c ⟨.socket d n, .unlinked, true⟩, next := c + 1 } : Host).isDir root = h.isDir root := by
        simp only [isDir, hget]
      rw [this]
      split
      · rename_i hi
        rw [if_pos hi] at hl
        rw [List.eq_nil_iff_forall_not_mem] at hl ⊢
        intro m hm
        rw [mem_entries, Assoc.has_iff] at hm
        obtain ⟨v, hv⟩ := hm
        exact hl m (mem_entries.2 (Assoc.has_iff.2 ⟨v, by rw [← hget]; exact hv⟩))
      · rfl
    have e6 : step root { h with fs := fs1, servers := h.servers.set c ⟨.socket d n, .unlinked, true⟩, next := c + 1 } (.go c) =
        { h with fs := fs1, servers := h.servers.set c ⟨.socket d n, .removing, true⟩, next := c + 1 } := by
      rw [go_eq (Assoc.get_set_self ..)]
      simp only [goServer]
      rw [if_pos hlist]
      simp only [set_set]
    show (step root (step root (step root (step root _ (.lastLeave c)) (.go c)) (.go c)) (.go c)).fs.get d = none
    rw [e4, e5, e6, go_eq (Assoc.get_set_self ..)]
    have he : (entries fs1 d).isEmpty = true := entries_none.2 fun m => by rw [hget]; exact hno m
    simp [goServer, hget, hd, he]

/-! ### A directory among the sessions -/

/-- A directory of the name of a session. -/
structure Taken (root : FsPath) (a : Str) (h : Host) : Prop where
  ok : Orderly h
  dir : h.fs.get (root ++ [a]) = some .dir
  calm : ∀ q p n, h.servers.get q = some p → p.place = .socket (root ++ [a]) n → p.phase ≠ .removing

theorem taken_listed {root : FsPath} {a : Str} {h : Host} (ht : Taken root a h) : a ∈ h.list root := by
  have := (ht.ok.up _ _ ht.dir).2
  rw [List.dropLast_concat] at this
  unfold list
  rw [if_pos this, mem_entries, Assoc.has_iff]
  exact ⟨_, ht.dir⟩

theorem taken_step {root : FsPath} {a : Str} {h : Host} (ht : Taken root a h) {st : Step} (hst : st ≠ .remove (root ++ [a])) :
    Taken root a (step root h st) := by
  have hlist := taken_listed ht
  obtain ⟨ok, hd, hc⟩ := ht
  have ok' := orderly_step (root := root) ok st
  have set : ∀ pid p v, h.servers.get pid = some p → v.place = p.place → v.phase ≠ .removing →
      ∀ q p' n, (h.servers.set pid v).get q = some p' → p'.place = .socket (root ++ [a]) n → p'.phase ≠ .removing := by
    intro pid p v hp hv hph q p' n hq hpl
    rw [Assoc.get_set] at hq
    split at hq
    · cases hq; exact hph
    · exact hc q p' n hq hpl
  have gone : ∀ pid, ∀ q p' n, (h.gone pid).servers.get q = some p' → p'.place = .socket (root ++ [a]) n → p'.phase ≠ .removing := by
    intro pid q p' n hq
    rw [gone_servers] at hq
    split at hq
    · cases hq
    · exact hc q p' n hq
  cases (step_moved root h st).2 with
  | idle fs ports servers => exact ⟨ok', by rw [fs]; exact hd, by rw [servers]; exact hc⟩
  | spawn pl fs ports servers next why =>
    refine ⟨ok', by rw [fs]; exact hd, ?_⟩
    rw [servers]
    intro q p' n hq hpl
    rw [Assoc.get_set] at hq
    split at hq
    · cases hq; simp
    · exact hc q p' n hq hpl
  | server pid p call at_ eq =>
    subst call
    have hstep := go_eq (root := root) at_
    refine ⟨ok', ?_, ?_⟩
    · cases hpl : p.place with
      | tcp b =>
        rw [hstep]
        rcases goServer_tcp (root := root) (h := h) (pid := pid) hpl with ⟨_, _, e⟩ | ⟨_, _, _, e⟩ | ⟨_, _, _, e⟩ | ⟨_, e⟩ | ⟨_, _, e⟩ <;> rw [e]
        all_goals first | exact hd | (rw [gone_fs]; exact hd)
      | socket d n =>
        rw [hstep]
        rcases goServer_socket (root := root) (h := h) (pid := pid) hpl with ⟨_, _, e⟩ | ⟨_, _, _, e⟩ | ⟨_, _, e⟩ | ⟨_, _, hf, e⟩ |
          ⟨_, _, e⟩ | ⟨_, e⟩ | ⟨_, _, e⟩ | ⟨_, ⟨node, hg, hnode⟩, e⟩ | ⟨_, _, e⟩ | ⟨_, _, e⟩ | ⟨hph, hg, hno, e⟩ | ⟨_, _, e⟩ <;> rw [e]
        · exact hd
        · show (makeDirs h.fs d).get _ = _
          rw [get_makeDirs]
          split
          · rfl
          · exact hd
        · exact hd
        · show (h.fs.set (d ++ [n]) _).get _ = _
          rw [Assoc.get_set_ne _ _, hd]
          intro x
          rw [← x, hd] at hf
          cases hf
        · exact hd
        · exact hd
        · rw [gone_fs]; exact hd
        · show (h.fs.del (d ++ [n])).get _ = _
          rw [Assoc.get_del_ne _, hd]
          intro x
          rw [← x, hd] at hg
          cases hg
          exact hnode rfl
        · exact hd
        · rw [gone_fs]; exact hd
        · show (h.fs.del d).get _ = _
          rw [Assoc.get_del_ne _, hd]
          intro x
          exact hc pid p n at_ (by rw [hpl, x]) hph
        · rw [gone_fs]; exact hd
    · cases hpl : p.place with
      | tcp b =>
        rw [hstep]
        rcases goServer_tcp (root := root) (h := h) (pid := pid) hpl with ⟨_, _, e⟩ | ⟨_, _, _, e⟩ | ⟨_, _, _, e⟩ | ⟨_, e⟩ | ⟨_, _, e⟩ <;> rw [e]
        all_goals first | exact set pid p _ at_ (by rfl) (by simp) | exact gone pid | exact hc
      | socket d n =>
        rw [hstep]
        rcases goServer_socket (root := root) (h := h) (pid := pid) hpl with ⟨_, _, e⟩ | ⟨_, _, _, e⟩ | ⟨_, _, e⟩ | ⟨_, _, hf, e⟩ |
          ⟨_, _, e⟩ | ⟨_, e⟩ | ⟨_, _, e⟩ | ⟨_, ⟨node, hg, hnode⟩, e⟩ | ⟨_, hl, e⟩ | ⟨_, _, e⟩ | ⟨hph, hg, hno, e⟩ | ⟨_, _, e⟩ <;> rw [e]
        all_goals first
          | (rw [hl] at hlist; cases hlist)
          | exact set pid p _ at_ (by rfl) (by simp)
          | exact gone pid
          | exact hc
  | leave pid p call at_ listens eq => rw [eq] at ok' ⊢; exact ⟨ok', hd, set pid p _ at_ (by rfl) (by simp)⟩
  | crash pid call eq => rw [eq] at ok' ⊢; exact ⟨ok', by rw [gone_fs]; exact hd, gone pid⟩
  | make dir name node call dirs new plain eq =>
    rw [eq] at ok' ⊢
    refine ⟨ok', ?_, hc⟩
    show (h.fs.set (dir ++ [name]) node).get _ = _
    rw [Assoc.get_set_ne _ _, hd]
    intro x
    rw [← x, Assoc.has_iff.2 ⟨_, hd⟩] at new
    cases new
  | remove path call empty eq =>
    rw [eq] at ok' ⊢
    refine ⟨ok', ?_, hc⟩
    show (h.fs.del path).get _ = _
    rw [Assoc.get_del_ne _, hd]
    rintro rfl
    exact hst call

theorem taken_unreached {root : FsPath} {a : Str} {h : Host} (ht : Taken root a h) : h.reaches (.socket root a) = none := by
  unfold reaches
  simp [ht.dir]

/-- C98: when the directory of sessions holds a directory, its name is listed as a session from then on, until somebody
removes it; no client starts a server of that name, and every client that comes for it is refused after two system calls of
its own. -/
theorem C98_blocked {root : FsPath} {h : Host} (hr : Hosted root h) {a : Str} (hd : h.fs.get (root ++ [a]) = some .dir)
    (hc : ∀ q p n, h.servers.get q = some p → p.place = .socket (root ++ [a]) n → p.phase ≠ .removing)
    {steps : List Step} (hst : .remove (root ++ [a]) ∉ steps) :
    a ∈ (run root h steps).list root ∧ (run root h steps).reaches (.socket root a) = none ∧
    (2 ≤ turnsOf h.next steps →
      (run root h (.client (.socket root a) :: steps)).clients.get h.next = some ⟨.socket root a, .refused⟩) := by
  have hne : ∀ st ∈ steps, st ≠ .remove (root ++ [a]) := fun st hs e => hst (e ▸ hs)
  have h0 : Taken root a h := ⟨orderly_hosted hr, hd, hc⟩
  have h1 := host_run_invariant (P := Taken root a) (ok := fun st => st ≠ .remove (root ++ [a])) (fun _ _ hP hok => taken_step hP hok) h0 hne
  refine ⟨taken_listed h1, taken_unreached h1, fun hcalls => ?_⟩
  obtain ⟨_, hv⟩ := visits_run (root := root) (place := .socket root a) (final := .refused) (c := h.next) (I := Taken root a)
    (ok := fun st => st ≠ .remove (root ++ [a])) (fun _ _ hP hok => taken_step hP hok) (fun h' ht => ⟨fun d n e => by
      cases e
      simp [pathExists, Assoc.has_iff.2 ⟨_, ht.dir⟩], by unfold gets; rw [taken_unreached ht]⟩) steps _ 0
    (taken_step (st := .client (.socket root a)) h0 (by simp)) (visits_new hr _ _) hne
  have := hv.phase
  rw [guestAfter_two (by omega)] at this
  exact this

theorem dirs_above {h : Host} (ok : Orderly h) {q p : FsPath} (hq : q <+: p) (hp : h.isDir p = true) : h.isDir q = true := by
  obtain ⟨r, rfl⟩ := hq
  induction hk : r.length generalizing r with
  | zero =>
    rw [List.length_eq_zero_iff.1 hk, List.append_nil] at hp
    exact hp
  | succ k ih =>
    obtain ⟨r, x, rfl⟩ : ∃ r' x, r = r' ++ [x] := by
      rcases List.eq_nil_or_concat r with e | ⟨r', x, e⟩
      · rw [e] at hk; cases hk
      · exact ⟨r', x, by rw [e, List.concat_eq_append]⟩
    refine ih r ?_ (by simpa using hk)
    rw [← List.append_assoc] at hp
    rcases isDir_iff.1 hp with e | e
    · simp at e
    · have := (ok.up _ _ e).2
      rwa [List.dropLast_concat] at this

/-- C98: a session at a nested path (`a/b`), started by hand, leaves such a directory behind when it ends. -/
theorem C98_leaves {root : FsPath} {h : Host} (hr : Hosted root h) {a b : Str} (hroot : h.isDir root = true)
    (ha : h.fs.get (root ++ [a]) = none) :
    (run root h [.server (.socket (root ++ [a]) b), .go h.next, .go h.next]).reaches (.socket (root ++ [a]) b) = some h.next ∧
    ∃ h', run root h ([.server (.socket (root ++ [a]) b), .go h.next, .go h.next] ++ [.lastLeave h.next, .go h.next, .go h.next]) = h' ∧
      h'.servers.get h.next = none ∧ h'.reaches (.socket (root ++ [a]) b) = none ∧
      h'.fs.get (root ++ [a] ++ [b]) = none ∧ h'.fs.get (root ++ [a]) = some .dir ∧ a ∈ h'.list root := by
  have ok := orderly_hosted hr
  have hb : h.fs.get (root ++ [a] ++ [b]) = none := leaf ok.up (by simp) (by rw [ha]; simp) b
  have hex : h.pathExists (root ++ [a]) = false := by simp [pathExists, Assoc.has_false.2 ha]
  have hall : (prefixes (root ++ [a])).all (fun q => !h.fs.has q || h.isDir q) = true := by
    rw [List.all_eq_true]
    intro q hq
    obtain ⟨h0, hpre⟩ := mem_prefixes.1 hq
    rcases List.prefix_concat_iff.1 hpre with e | e
    · rw [e]; simp [Assoc.has_false.2 ha]
    · simp [dirs_above ok e hroot]
  generalize hfs1 : makeDirs h.fs (root ++ [a]) = fs1
  have hget : ∀ x, fs1.get x = if x = root ++ [a] then some .dir else h.fs.get x := by
    intro x
    rw [← hfs1, get_makeDirs]
    by_cases e : x = root ++ [a]
    · rw [if_pos e, if_pos]
      subst e
      exact ⟨Assoc.has_false.2 ha, by simp, List.prefix_refl _⟩
    · rw [if_neg e, if_neg]
      rintro ⟨h1, h2, h3⟩
      rcases List.prefix_concat_iff.1 h3 with e' | e'
      · exact e e'
      · rcases isDir_iff.1 (dirs_above ok e' hroot) with e2 | e2
        · exact h2 e2
        · rw [Assoc.has_iff.2 ⟨_, e2⟩] at h1; cases h1
  have hd1 : fs1.get (root ++ [a]) = some .dir := by rw [hget, if_pos rfl]
  have hb1 : fs1.get (root ++ [a] ++ [b]) = none := by
    rw [hget, if_neg (by simp), hb]
  generalize hh : h.next = c
  generalize hD : root ++ [a] = D at *
  have e1 : step root h (.server (.socket D b)) =
      { h with servers := h.servers.set c ⟨.socket D b, .starting, false⟩, next := c + 1 } := by
    show h.spawn _ = _
    simp only [spawn, hh]
  have e2 : step root { h with servers := h.servers.set c ⟨.socket D b, .starting, false⟩, next := c + 1 } (.go c) =
      { h with fs := fs1, servers := h.servers.set c ⟨.socket D b, .ready, false⟩, next := c + 1 } := by
    rw [go_eq (Assoc.get_set_self ..)]
    have h1 : ({ h with servers := h.servers.set c ⟨.socket D b, .starting, false⟩, next := c + 1 } : Host).pathExists D = false := hex
    have h2 : (prefixes D).all (fun q => !({ h with servers := h.servers.set c ⟨.socket D b, .starting, false⟩, next := c + 1 } : Host).fs.has q ||
      ({ h with servers := h.servers.set c ⟨.socket D b, .starting, false⟩, next := c + 1 } : Host).isDir q) = true := hall
    simp only [goServer, h1, Bool.false_eq_true, if_false, h2, if_true, set_set, hfs1]
  have e3 : step root { h with fs := fs1, servers := h.servers.set c ⟨.socket D b, .ready, false⟩, next := c + 1 } (.go c) =
      { h with fs := fs1.set (D ++ [b]) (.socket c), servers := h.servers.set c ⟨.socket D b, .listening, true⟩, next := c + 1 } := by
    rw [go_eq (Assoc.get_set_self ..)]
    have : ({ h with fs := fs1, servers := h.servers.set c ⟨.socket D b, .ready, false⟩, next := c + 1 } : Host).isDir D = true :=
      isDir_iff.2 (.inr hd1)
    simp [goServer, set_set, Assoc.has_false.2 hb1, this]
  have hrun : run root h [.server (.socket D b), .go c, .go c] =
      { h with fs := fs1.set (D ++ [b]) (.socket c), servers := h.servers.set c ⟨.socket D b, .listening, true⟩, next := c + 1 } := by
    show step root (step root (step root h (.server (.socket D b))) (.go c)) (.go c) = _
    rw [e1, e2, e3]
  refine ⟨by rw [hrun]; simp [reaches], _, rfl, ?_⟩
  rw [host_run_append, hrun]
  generalize hfs2 : (fs1.set (D ++ [b]) (.socket c)).del (D ++ [b]) = fs2
  have hget2 : ∀ x, fs2.get x = fs1.get x := by
    intro x
    rw [← hfs2, Assoc.get_del]
    split
    · rename_i e; rw [e, hb1]
    · rename_i e; rw [Assoc.get_set_ne _ e]
  have e4 : step root { h with fs := fs1.set (D ++ [b]) (.socket c), servers := h.servers.set c ⟨.socket D b, .listening, true⟩, next := c + 1 }
      (.lastLeave c) =
      { h with fs := fs1.set (D ++ [b]) (.socket c), servers := h.servers.set c ⟨.socket D b, .ending, true⟩, next := c + 1 } := by
    simp [step, set_set]
  have e5 : step root { h with fs := fs1.set (D ++ [b]) (.socket c), servers := h.servers.set c ⟨.socket D b, .ending, true⟩, next := c + 1 }
      (.go c) = { h with fs := fs2, servers := h.servers.set c ⟨.socket D b, .unlinked, true⟩, next := c + 1 } := by
    rw [go_eq (Assoc.get_set_self ..)]
    simp [goServer, set_set, hfs2]
  have hin : ∀ h' : Host, h'.fs = fs2 → a ∈ h'.list root := by
    rintro h' rfl
    have hi : h'.isDir root = true := by
      rcases isDir_iff.1 hroot with e | e
      · exact isDir_iff.2 (.inl e)
      · refine isDir_iff.2 (.inr ?_)
        rw [hget2, hget]
        split
        · rfl
        · exact e
    unfold list
    rw [if_pos hi, mem_entries, Assoc.has_iff, hD]
    exact ⟨_, by rw [hget2]; exact hd1⟩
  have e6 : step root { h with fs := fs2, servers := h.servers.set c ⟨.socket D b, .unlinked, true⟩, next := c + 1 } (.go c) =
      ({ h with fs := fs2, servers := h.servers.set c ⟨.socket D b, .unlinked, true⟩, next := c + 1 } : Host).gone c := by
    rw [go_eq (Assoc.get_set_self ..)]
    simp only [goServer]
    rw [if_neg]
    intro e
    have := hin { h with fs := fs2, servers := h.servers.set c ⟨.socket D b, .unlinked, true⟩, next := c + 1 } rfl
    rw [e] at this
    cases this
  have hend : run root { h with fs := fs1.set (D ++ [b]) (.socket c), servers := h.servers.set c ⟨.socket D b, .listening, true⟩, next := c + 1 }
      [.lastLeave c, .go c, .go c] =
      ({ h with fs := fs2, servers := h.servers.set c ⟨.socket D b, .unlinked, true⟩, next := c + 1 } : Host).gone c := by
    show step root (step root (step root _ (.lastLeave c)) (.go c)) (.go c) = _
    rw [e4, e5, e6]
  rw [hend]
  refine ⟨by rw [gone_servers, if_pos rfl], ?_, ?_, ?_, hin _ (gone_fs _ _)⟩
  · unfold reaches
    simp only [gone_fs, hget2, hb1]
  · rw [gone_fs]; exact (hget2 _).trans hb1
  · rw [gone_fs]; exact (hget2 _).trans hd1

/-- C98: a client that comes for a session outside the directory of sessions whose socket is not there, undisturbed: the
server it starts listens at another place, and the client is refused. -/
theorem C98_elsewhere {root : FsPath} {h : Host} (hr : Hosted root h) {d : FsPath} {n : Str} (hd : d ≠ root)
    (hpath : h.fs.get (d ++ [n]) = none) (hroot : h.isDir root = true) (hn : h.fs.get (root ++ [n]) = none) :
    ∃ h', run root h [.client (.socket d n), .go h.next, .go (h.next + 1), .go (h.next + 1), .go h.next, .go h.next] = h' ∧
      h'.reaches (.socket root n) = some (h.next + 1) ∧ h'.clients.get h.next = some ⟨.socket d n, .refused⟩ := by
  have hs : h.servers.get h.next = none := by
    cases hs : h.servers.get h.next with
    | none => rfl
    | some p => exact absurd ((orderly_hosted hr).below _ p hs) (Nat.lt_irrefl _)
  have hex : h.pathExists (d ++ [n]) = false := by simp [pathExists, Assoc.has_false.2 hpath]
  have hexr : h.pathExists root = true := by
    rcases isDir_iff.1 hroot with e | e
    · simp [pathExists, e]
    · simp [pathExists, Assoc.has_iff.2 ⟨_, e⟩]
  generalize hh : h.next = c at *
  have ne : c ≠ c + 1 := by omega
  obtain ⟨fs, ports, servers, clients, next⟩ := h
  dsimp only at *
  subst hh
  generalize hS : servers.set (next + 1) (⟨.socket root n, .starting, false⟩ : HostServer) = S1
  have gS : ∀ v : HostServer, (servers.set (next + 1) v).get next = none := fun v => by
    rw [Assoc.get_set_ne _ ne, hs]
  have e1 : step root ⟨fs, ports, servers, clients, next⟩ (.client (.socket d n)) =
      ⟨fs, ports, servers, clients.set next ⟨.socket d n, .checking⟩, next + 1⟩ := rfl
  have client : ∀ (h' : Host) (g : Guest), h'.servers.get next = none → h'.clients.get next = some g →
      step root h' (.go next) = goClient root h' next g := by
    intro h' g h1 h2
    simp only [step, h1, h2]
  have e2 : step root ⟨fs, ports, servers, clients.set next ⟨.socket d n, .checking⟩, next + 1⟩ (.go next) =
      ⟨fs, ports, servers.set (next + 1) ⟨.socket root n, .starting, false⟩, clients.set next ⟨.socket d n, .waiting (next + 1)⟩, next + 2⟩ := by
    rw [client _ _ hs (Assoc.get_set_self ..)]
    have : (⟨fs, ports, servers, clients.set next ⟨.socket d n, .checking⟩, next + 1⟩ : Host).pathExists (d ++ [n]) = false := hex
    simp only [goClient, this, Bool.false_eq_true, if_false, spawn, set_set]
  have e3 : step root ⟨fs, ports, servers.set (next + 1) ⟨.socket root n, .starting, false⟩, clients.set next ⟨.socket d n, .waiting (next + 1)⟩, next + 2⟩
      (.go (next + 1)) =
      ⟨fs, ports, servers.set (next + 1) ⟨.socket root n, .ready, false⟩, clients.set next ⟨.socket d n, .waiting (next + 1)⟩, next + 2⟩ := by
    rw [go_eq (Assoc.get_set_self ..)]
    have : (⟨fs, ports, servers.set (next + 1) ⟨.socket root n, .starting, false⟩, clients.set next ⟨.socket d n, .waiting (next + 1)⟩, next + 2⟩ : Host).pathExists root = true := hexr
    simp only [goServer, this, if_true, set_set]
  have e4 : step root ⟨fs, ports, servers.set (next + 1) ⟨.socket root n, .ready, false⟩, clients.set next ⟨.socket d n, .waiting (next + 1)⟩, next + 2⟩
      (.go (next + 1)) =
      ⟨fs.set (root ++ [n]) (.socket (next + 1)), ports, servers.set (next + 1) ⟨.socket root n, .listening, true⟩,
        clients.set next ⟨.socket d n, .waiting (next + 1)⟩, next + 2⟩ := by
    rw [go_eq (Assoc.get_set_self ..)]
    have : (⟨fs, ports, servers.set (next + 1) ⟨.socket root n, .ready, false⟩, clients.set next ⟨.socket d n, .waiting (next + 1)⟩, next + 2⟩ : Host).isDir root = true := hroot
    simp [goServer, set_set, this, Assoc.has_false.2 hn]
  have e5 : step root ⟨fs.set (root ++ [n]) (.socket (next + 1)), ports, servers.set (next + 1) ⟨.socket root n, .listening, true⟩,
        clients.set next ⟨.socket d n, .waiting (next + 1)⟩, next + 2⟩ (.go next) =
      ⟨fs.set (root ++ [n]) (.socket (next + 1)), ports, servers.set (next + 1) ⟨.socket root n, .listening, true⟩,
        clients.set next ⟨.socket d n, .connecting⟩, next + 2⟩ := by
    rw [client _ _ (gS _) (Assoc.get_set_self ..)]
    simp [goClient, set_set]
  have hno : (fs.set (root ++ [n]) (.socket (next + 1))).get (d ++ [n]) = none := by
    rw [Assoc.get_set_ne _ _, hpath]
    intro e
    exact hd (List.append_inj_left' e rfl)
  have e6 : step root ⟨fs.set (root ++ [n]) (.socket (next + 1)), ports, servers.set (next + 1) ⟨.socket root n, .listening, true⟩,
        clients.set next ⟨.socket d n, .connecting⟩, next + 2⟩ (.go next) =
      ⟨fs.set (root ++ [n]) (.socket (next + 1)), ports, servers.set (next + 1) ⟨.socket root n, .listening, true⟩,
        clients.set next ⟨.socket d n, .refused⟩, next + 2⟩ := by
    rw [client _ _ (gS _) (Assoc.get_set_self ..)]
    simp [goClient, set_set, reaches, hno]
  refine ⟨_, rfl, ?_⟩
  have e : run root ⟨fs, ports, servers, clients, next⟩ [.client (.socket d n), .go next, .go (next + 1), .go (next + 1), .go next, .go next] =
      ⟨fs.set (root ++ [n]) (.socket (next + 1)), ports, servers.set (next + 1) ⟨.socket root n, .listening, true⟩,
        clients.set next ⟨.socket d n, .refused⟩, next + 2⟩ := by
    show step root (step root (step root (step root (step root (step root _ (.client (.socket d n))) (.go next)) (.go (next + 1))) (.go (next + 1))) (.go next)) (.go next) = _
    rw [e1, e2, e3, e4, e5, e6]
  rw [e]
  exact ⟨by simp [reaches], Assoc.get_set_self ..⟩

/-! ### Concrete cases -/

/-- Also an empty directory of the user. -/
def filesB : Assoc FsPath Node :=
  [([str!"tmp"], .dir), ([str!"home"], .dir), ([str!"home", str!"notes"], .file), ([str!"home", str!"new"], .dir)]

theorem filesB_rooted : Rooted filesB := by
  intro p node hg
  have := Assoc.get_mem hg
  have key : ∀ e ∈ filesB, e.1 ≠ [] ∧ (e.1.dropLast = [] ∨ filesB.get e.1.dropLast = some .dir) ∧
      ∀ q, e.2 = .socket q → q = 0 := by
    intro e he
    simp only [filesB, List.mem_cons, List.not_mem_nil, or_false] at he
    rcases he with rfl | rfl | rfl | rfl <;> refine ⟨by simp, by decide, by simp⟩
  exact key (p, node) this

/-- The names of the examples. -/
example : (fromName asciiClasses tmpRoot str!"/home/notes").map placeOf = .ok (some (.socket [str!"home"] str!"notes")) ∧
    (fromName asciiClasses tmpRoot str!"/home/new/s").map placeOf = .ok (some (.socket [str!"home", str!"new"] str!"s")) ∧
    (fromName asciiClasses tmpRoot str!"a/b").map placeOf = .ok (some (.socket (rootA ++ [str!"a"]) str!"b")) ∧
    (fromName asciiClasses tmpRoot str!"a").map placeOf = .ok (some (.socket rootA str!"a")) := by decide +kernel

/-- `ced --mode=server --session=/home/notes` removes the user's file. -/
example : (run rootA (booted filesB) [.server (.socket [str!"home"] str!"notes"), .go 1, .go 1, .go 1]).fs =
    filesB.del [str!"home", str!"notes"] :=
  C98_deletes_refuted (h := booted filesB) ⟨filesB, [], filesB_rooted, rfl⟩ (by decide)

/-- A client of that name does not. -/
example : (run rootA (booted filesB) [.client (.socket [str!"home"] str!"notes"), .go 1, .go 1]).fs.get ([str!"home"] ++ [str!"notes"]) =
    some .file :=
  C98_files (h := booted filesB) (by decide) (by decide) (fun q p hq => (by cases hq)) (by simp)

/-- A session in the user's empty directory removes the directory. -/
example : (run rootA (booted filesB) ([.server (.socket [str!"home", str!"new"] str!"s"), .go 1, .go 1] ++ [.lastLeave 1, .go 1, .go 1, .go 1])).fs.get
    [str!"home", str!"new"] = none :=
  (C98_directory_refuted (h := booted filesB) ⟨filesB, [], filesB_rooted, rfl⟩ (by decide) (fun m => by
    refine Assoc.has_false.1 ?_
    cases hh : filesB.has ([str!"home", str!"new"] ++ [m]) with
    | false => exact hh
    | true =>
      exfalso
      rw [← Assoc.mem_keys] at hh
      simp [filesB, Assoc.keys] at hh) (by decide) (by decide)).2

/-- A running session "c", and then a session "a/b" that comes and goes. -/
def nestedA : List Step :=
  [.server (.socket rootA str!"c"), .go 1, .go 1, .server (.socket (rootA ++ [str!"a"]) str!"b"), .go 2, .go 2, .lastLeave 2, .go 2, .go 2]

example : (run rootA (booted filesB) nestedA).list rootA = [str!"c", str!"a"] ∧
    (run rootA (booted filesB) nestedA).fs.get (rootA ++ [str!"a"]) = some .dir ∧
    (run rootA (booted filesB) nestedA).servers.map (fun e => (e.1, e.2.place)) = [(1, .socket rootA str!"c")] := by decide +kernel

/-- Then "a" is blocked: a client is refused, and a server by hand does not help. -/
example : (run rootA (run rootA (booted filesB) nestedA) (.client (.socket rootA str!"a") ::
      [.server (.socket rootA str!"a"), .go 4, .go 4, .go 3, .go 4, .go 3])).clients.get 3 = some ⟨.socket rootA str!"a", .refused⟩ :=
  (C98_blocked (h := run rootA (booted filesB) nestedA) ⟨filesB, nestedA, filesB_rooted, rfl⟩ (a := str!"a") (by decide +kernel)
    (fun q p n hq hpl => by
      have hm := Assoc.get_mem hq
      have hall : ∀ e ∈ (run rootA (booted filesB) nestedA).servers, e.2.phase ≠ .removing := by decide +kernel
      exact hall _ hm) (by decide)).2.2 (by decide +kernel)

/-- The hypotheses of `C98_leaves` and `C98_elsewhere`. -/
example : (run rootA (booted filesB) (nestedA.take 3)).isDir rootA = true ∧
    (run rootA (booted filesB) (nestedA.take 3)).fs.get (rootA ++ [str!"a"]) = none ∧
    (run rootA (booted filesB) (nestedA.take 3)).fs.get (rootA ++ [str!"a"] ++ [str!"b"]) = none ∧
    (run rootA (booted filesB) (nestedA.take 3)).fs.get (rootA ++ [str!"b"]) = none := by decide +kernel

end Ced.Props
