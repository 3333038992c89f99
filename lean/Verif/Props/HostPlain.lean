import Verif.Props.HostPaths
import Verif.Props.Lifecycle

/-!
# C98: on sessions with plain names the machine with paths is the machine of C79 and C80
-/

namespace Ced.Props

open Host

/-- The same phase. -/
def phaseAt : ServerPhase → HostPhase
  | .starting => .starting
  | .ready => .ready
  | .listening => .listening
  | .ending => .ending
  | .unlinked => .unlinked
  | .removing => .removing

/-- The server of a plain name. -/
def serverAt (root : FsPath) (p : ServerProc) : HostServer := ⟨.socket root p.name, phaseAt p.phase, p.told⟩

/-- The same phase. -/
def guestAt : ClientPhase → GuestPhase
  | .checking => .checking
  | .waiting q => .waiting q
  | .connecting => .connecting
  | .connected q => .connected q
  | .refused => .refused

/-- The client of a plain name. -/
def clientAt (root : FsPath) (c : ClientProc) : Guest := ⟨.socket root c.name, guestAt c.phase⟩

/-- The same step, for the socket of that name in the directory of sessions. -/
def stepAt (root : FsPath) : Machine.Step → Host.Step
  | .server n => .server (.socket root n)
  | .client n => .client (.socket root n)
  | .go pid => .go pid
  | .lastLeave pid => .lastLeave pid
  | .crash pid => .crash pid

/-- The two machines agree. -/
structure Agree (root : FsPath) (m : Machine) (h : Host) : Prop where
  next : h.next = m.next
  servers : ∀ q, h.servers.get q = (m.servers.get q).map (serverAt root)
  clients : ∀ c, h.clients.get c = (m.clients.get c).map (clientAt root)
  files : ∀ n, h.fs.get (root ++ [n]) = (m.files.get n).map .socket
  dir : h.fs.get root = if m.dir then some .dir else none
  way : ∀ q, q ≠ [] → q <+: root → q ≠ root → h.fs.get q = some .dir
  sane : Sane m

theorem agree_has {root : FsPath} {m : Machine} {h : Host} (ag : Agree root m h) (n : Str) : h.fs.has (root ++ [n]) = m.files.has n := by
  cases hg : m.files.get n with
  | none =>
    rw [Assoc.has_false.2 hg, Assoc.has_false]
    rw [ag.files, hg]; rfl
  | some q =>
    rw [Assoc.has_iff.2 ⟨_, hg⟩, Assoc.has_iff]
    exact ⟨.socket q, by rw [ag.files, hg]; rfl⟩

theorem agree_isDir {root : FsPath} (hroot : root ≠ []) {m : Machine} {h : Host} (ag : Agree root m h) : h.isDir root = m.dir := by
  unfold isDir
  rw [ag.dir]
  cases m.dir <;> simp [hroot]

theorem agree_exists {root : FsPath} (hroot : root ≠ []) {m : Machine} {h : Host} (ag : Agree root m h) : h.pathExists root = m.dir := by
  unfold pathExists Assoc.has
  rw [ag.dir]
  cases m.dir <;> simp [hroot]

theorem agree_mem {root : FsPath} (hroot : root ≠ []) {m : Machine} {h : Host} (ag : Agree root m h) (n : Str) :
    n ∈ h.list root ↔ n ∈ m.list := by
  unfold Host.list Machine.list
  rw [agree_isDir hroot ag]
  split
  · rw [mem_entries, agree_has ag, Assoc.mem_keys]
  · rfl

theorem agree_nil {root : FsPath} (hroot : root ≠ []) {m : Machine} {h : Host} (ag : Agree root m h) :
    h.list root = [] ↔ m.list = [] := by
  rw [List.eq_nil_iff_forall_not_mem, List.eq_nil_iff_forall_not_mem]
  exact forall_congr' fun n => not_congr (agree_mem hroot ag n)

theorem agree_reaches {root : FsPath} {m : Machine} {h : Host} (ag : Agree root m h) (n : Str) :
    h.reaches (.socket root n) = m.listener n := by
  unfold reaches Machine.listener
  dsimp only
  rw [ag.files]
  cases hf : m.files.get n with
  | none => rfl
  | some q =>
    dsimp only [Option.map]
    rw [ag.servers]
    cases hs : m.servers.get q with
    | none => rfl
    | some p =>
      dsimp only [Option.map, serverAt]
      cases hp : p.phase <;> simp [phaseAt]

theorem map_set {K V W : Type} [DecidableEq K] {a : Assoc K V} {b : Assoc K W} {f : V → W} (h : ∀ q, b.get q = (a.get q).map f)
    (k : K) (v : V) {w : W} (hw : w = f v) : ∀ q, (b.set k w).get q = ((a.set k v).get q).map f := by
  intro q
  rw [Assoc.get_set, Assoc.get_set, hw]
  split
  · rfl
  · exact h q

theorem map_del {K V W : Type} [DecidableEq K] {a : Assoc K V} {b : Assoc K W} {f : V → W} (h : ∀ q, b.get q = (a.get q).map f)
    (k : K) : ∀ q, (b.del k).get q = ((a.del k).get q).map f := by
  intro q
  rw [Assoc.get_del, Assoc.get_del]
  split
  · rfl
  · exact h q

/-- A path in the directory of sessions is not on the way to it. -/
theorem inside_ne {root q : FsPath} (hq : q <+: root) (n : Str) : q ≠ root ++ [n] := by
  rintro rfl
  have := hq.length_le
  simp at this
  omega

theorem agree_gone {root : FsPath} {m : Machine} {h : Host} (ag : Agree root m h) (pid : Nat) (sane : Sane { m with servers := m.servers.del pid }) :
    Agree root { m with servers := m.servers.del pid } (h.gone pid) := by
  refine ⟨by rw [gone_next]; exact ag.next, ?_, by rw [gone_clients]; exact ag.clients, by rw [gone_fs]; exact ag.files,
    by rw [gone_fs]; exact ag.dir, by rw [gone_fs]; exact ag.way, sane⟩
  intro q
  rw [gone_servers]
  show _ = ((m.servers.del pid).get q).map _
  rw [Assoc.get_del]
  split
  · rfl
  · exact ag.servers q

theorem agree_server {root : FsPath} (hroot : root ≠ []) {m : Machine} {h : Host} (ag : Agree root m h) {pid : Nat} {p : ServerProc}
    (hp : m.servers.get pid = some p) (sane : Sane (m.goServer pid p)) :
    Agree root (m.goServer pid p) (goServer root h pid (serverAt root p)) := by
  have hpl : (serverAt root p).place = .socket root p.name := rfl
  have hnil : ∀ n, root ≠ root ++ [n] := fun n e => by
    have := congrArg List.length e
    simp at this
  rcases (go_cases m pid p).2.2 with ⟨hph, e⟩ | ⟨hph, hor, e⟩ | ⟨hph, hd, hf, e⟩ | ⟨hph, e⟩ | ⟨hph, hf, e⟩ | ⟨hph, hf, e⟩ | ⟨hph, hl, e⟩ |
      ⟨hph, hl, e⟩ | ⟨hph, e⟩
  · -- the directory
    have hph' : (serverAt root p).phase = .starting := by simp [serverAt, hph, phaseAt]
    rw [e] at sane ⊢
    unfold goServer
    rw [hpl, hph']
    dsimp only
    rw [agree_exists hroot ag]
    cases hdm : m.dir with
    | true =>
      rw [if_pos rfl]
      exact ⟨ag.next, map_set ag.servers pid { p with phase := .ready } rfl, ag.clients, ag.files,
        by rw [ag.dir, hdm], ag.way, sane⟩
    | false =>
      rw [if_neg (by simp)]
      have hall : (prefixes root).all (fun q => !h.fs.has q || h.isDir q) = true := by
        rw [List.all_eq_true]
        intro q hq
        obtain ⟨h0, hpre⟩ := mem_prefixes.1 hq
        by_cases e : q = root
        · rw [e, Assoc.has_false.2 (by rw [ag.dir, hdm]; rfl)]; rfl
        · rw [isDir_iff.2 (.inr (ag.way q h0 hpre e)), Bool.or_true]
      rw [if_pos hall]
      refine ⟨ag.next, map_set ag.servers pid { p with phase := .ready } rfl, ag.clients, ?_, ?_, ?_, sane⟩
      · intro n
        show (makeDirs h.fs root).get _ = _
        rw [get_makeDirs, if_neg]
        · exact ag.files n
        · rintro ⟨_, _, hpre⟩
          exact inside_ne hpre n rfl
      · show (makeDirs h.fs root).get root = some .dir
        rw [get_makeDirs, if_pos ⟨Assoc.has_false.2 (by rw [ag.dir, hdm]; rfl), hroot, List.prefix_refl _⟩]
      · intro q h0 hpre hne
        show (makeDirs h.fs root).get q = some .dir
        rw [get_makeDirs]
        split
        · rfl
        · exact ag.way q h0 hpre hne
  · -- it cannot bind
    have hph' : (serverAt root p).phase = .ready := by simp [serverAt, hph, phaseAt]
    rw [e] at sane ⊢
    unfold goServer
    rw [hpl, hph']
    dsimp only
    rw [agree_isDir hroot ag, agree_has ag, if_neg]
    · exact ⟨ag.next, map_set ag.servers pid { p with phase := .ending } rfl, ag.clients, ag.files, ag.dir, ag.way, sane⟩
    · rcases hor with x | x <;> simp [x]
  · -- it binds
    have hph' : (serverAt root p).phase = .ready := by simp [serverAt, hph, phaseAt]
    rw [e] at sane ⊢
    unfold goServer
    rw [hpl, hph']
    dsimp only
    rw [agree_isDir hroot ag, agree_has ag, if_pos (by simp [hd, hf])]
    refine ⟨ag.next, map_set ag.servers pid { p with phase := .listening, told := true } rfl, ag.clients, ?_, ?_, ?_, sane⟩
    · intro n
      show (h.fs.set (root ++ [p.name]) (.socket pid)).get (root ++ [n]) = ((m.files.set p.name pid).get n).map .socket
      rw [Assoc.get_set, Assoc.get_set]
      by_cases en : n = p.name
      · rw [if_pos (by rw [en]), if_pos en]; rfl
      · rw [if_neg (by simpa using en), if_neg en]; exact ag.files n
    · show (h.fs.set (root ++ [p.name]) (.socket pid)).get root = _
      rw [Assoc.get_set_ne _ (hnil _)]; exact ag.dir
    · intro q h0 hpre hne
      show (h.fs.set (root ++ [p.name]) (.socket pid)).get q = _
      rw [Assoc.get_set_ne _ (inside_ne hpre _)]; exact ag.way q h0 hpre hne
  · have hph' : (serverAt root p).phase = .listening := by simp [serverAt, hph, phaseAt]
    rw [e]
    unfold goServer
    rw [hpl, hph']
    exact ag
  · -- the socket is removed
    have hph' : (serverAt root p).phase = .ending := by simp [serverAt, hph, phaseAt]
    rw [e] at sane ⊢
    obtain ⟨q0, hq0⟩ := Assoc.has_iff.1 hf
    unfold goServer
    rw [hpl, hph']
    dsimp only
    rw [ag.files, hq0]
    dsimp only [Option.map]
    refine ⟨ag.next, map_set ag.servers pid { p with phase := .unlinked } rfl, ag.clients, ?_, ?_, ?_, sane⟩
    · intro n
      show (h.fs.del (root ++ [p.name])).get (root ++ [n]) = ((m.files.del p.name).get n).map .socket
      rw [Assoc.get_del, Assoc.get_del]
      by_cases en : n = p.name
      · rw [if_pos (by rw [en]), if_pos en]; rfl
      · rw [if_neg (by simpa using en), if_neg en]; exact ag.files n
    · show (h.fs.del (root ++ [p.name])).get root = _
      rw [Assoc.get_del_ne (hnil _)]; exact ag.dir
    · intro q h0 hpre hne
      show (h.fs.del (root ++ [p.name])).get q = _
      rw [Assoc.get_del_ne (inside_ne hpre _)]; exact ag.way q h0 hpre hne
  · have hph' : (serverAt root p).phase = .ending := by simp [serverAt, hph, phaseAt]
    rw [e] at sane ⊢
    unfold goServer
    rw [hpl, hph']
    dsimp only
    rw [ag.files, Assoc.has_false.1 hf]
    exact agree_gone ag pid sane
  · have hph' : (serverAt root p).phase = .unlinked := by simp [serverAt, hph, phaseAt]
    rw [e] at sane ⊢
    unfold goServer
    rw [hpl, hph']
    dsimp only
    rw [if_pos ((agree_nil hroot ag).2 hl)]
    exact ⟨ag.next, map_set ag.servers pid { p with phase := .removing } rfl, ag.clients, ag.files, ag.dir, ag.way, sane⟩
  · have hph' : (serverAt root p).phase = .unlinked := by simp [serverAt, hph, phaseAt]
    rw [e] at sane ⊢
    unfold goServer
    rw [hpl, hph']
    dsimp only
    rw [if_neg (fun x => hl ((agree_nil hroot ag).1 x))]
    exact agree_gone ag pid sane
  · -- the directory is removed if it is empty
    have hph' : (serverAt root p).phase = .removing := by simp [serverAt, hph, phaseAt]
    rw [e] at sane ⊢
    have hempty : (entries h.fs root).isEmpty = m.files.isEmpty := by
      rw [Bool.eq_iff_iff, entries_none]
      constructor
      · intro hh
        rw [List.isEmpty_iff, assoc_nil]
        intro n
        have := hh n
        rw [ag.files] at this
        exact Option.map_eq_none_iff.1 this
      · intro hh n
        rw [List.isEmpty_iff, assoc_nil] at hh
        rw [ag.files, hh n]; rfl
    unfold goServer
    rw [hpl, hph']
    dsimp only
    rw [ag.dir, hempty]
    have g : Agree root { m with servers := m.servers.del pid } (h.gone pid) := by
      refine agree_gone ag pid ⟨sane.servers, ?_, sane.owner⟩
      intro hne
      have := sane.dir hne
      simp only [Bool.and_eq_true] at this
      exact this.1
    cases hdm : m.dir with
    | false =>
      rw [hdm] at sane
      rw [if_neg (by simp)]
      refine ⟨g.next, g.servers, g.clients, g.files, ?_, g.way, sane⟩
      rw [g.dir]
      simp [hdm]
    | true =>
      cases hem : m.files.isEmpty with
      | false =>
        rw [hdm, hem] at sane
        rw [if_neg (by simp)]
        refine ⟨g.next, g.servers, g.clients, g.files, ?_, g.way, sane⟩
        rw [g.dir]
        simp [hdm, hem]
      | true =>
        rw [hdm, hem] at sane
        rw [if_pos (by simp)]
        refine ⟨g.next, g.servers, g.clients, ?_, ?_, ?_, sane⟩
        · intro n
          show (h.fs.del root).get _ = _
          rw [Assoc.get_del_ne (fun x => hnil n x.symm)]; exact ag.files n
        · show (h.fs.del root).get root = _
          rw [Assoc.get_del_self]; simp [hdm, hem]
        · intro q h0 hpre hne
          show (h.fs.del root).get q = _
          rw [Assoc.get_del_ne hne]; exact ag.way q h0 hpre hne

theorem agree_client {root : FsPath} {m : Machine} {h : Host} (ag : Agree root m h) {pid : Nat} {c : ClientProc}
    (hc : m.clients.get pid = some c) (sane : Sane (m.goClient pid c)) :
    Agree root (m.goClient pid c) (goClient root h pid (clientAt root c)) := by
  have set : ∀ ph : ClientPhase, Sane { m with clients := m.clients.set pid { c with phase := ph } } →
      Agree root { m with clients := m.clients.set pid { c with phase := ph } }
        { h with clients := h.clients.set pid { clientAt root c with phase := guestAt ph } } := by
    intro ph sane
    exact ⟨ag.next, ag.servers, map_set ag.clients pid { c with phase := ph } rfl, ag.files, ag.dir, ag.way, sane⟩
  cases hph : c.phase with
  | checking =>
    have hp' : (clientAt root c).phase = .checking := by simp [clientAt, hph, guestAt]
    unfold Machine.goClient at sane ⊢
    unfold goClient
    rw [hp']
    simp only [hph] at sane ⊢
    have hpl : (clientAt root c).place = .socket root c.name := rfl
    rw [hpl]
    dsimp only
    have hx : h.pathExists (root ++ [c.name]) = (m.dir && m.files.has c.name) := by
      unfold pathExists
      rw [agree_has ag]
      cases hf : m.files.has c.name with
      | false => simp
      | true =>
        have : m.dir = true := ag.sane.dir fun e => by
          rw [Assoc.has_false.2 (assoc_nil.1 e c.name)] at hf
          cases hf
        simp [this]
    rw [hx]
    split
    · rename_i hh
      rw [if_pos hh] at sane
      exact set .connecting sane
    · rename_i hh
      rw [if_neg hh] at sane
      unfold Machine.spawn at sane ⊢
      unfold spawn
      dsimp only at sane ⊢
      refine ⟨by show h.next + 1 = m.next + 1; rw [ag.next], ?_, ?_, ag.files, ag.dir, ag.way, sane⟩
      · show ∀ q, (h.servers.set h.next _).get q = ((m.servers.set m.next _).get q).map _
        rw [ag.next]
        exact map_set ag.servers m.next _ rfl
      · show ∀ q, (h.clients.set pid _).get q = ((m.clients.set pid _).get q).map _
        rw [ag.next]
        exact map_set ag.clients pid _ rfl
  | waiting q =>
    have hp' : (clientAt root c).phase = .waiting q := by simp [clientAt, hph, guestAt]
    unfold Machine.goClient at sane ⊢
    unfold goClient
    rw [hp']
    simp only [hph] at sane ⊢
    rw [ag.servers]
    cases hs : m.servers.get q with
    | none =>
      simp only [hs] at sane ⊢
      exact set .connecting sane
    | some p =>
      simp only [hs] at sane ⊢
      dsimp only [Option.map, serverAt]
      cases ht : p.told with
      | true =>
        simp only [ht, if_true] at sane ⊢
        exact set .connecting sane
      | false => exact ag
  | connecting =>
    have hp' : (clientAt root c).phase = .connecting := by simp [clientAt, hph, guestAt]
    unfold Machine.goClient at sane ⊢
    unfold goClient
    rw [hp']
    simp only [hph] at sane ⊢
    have hpl : (clientAt root c).place = .socket root c.name := rfl
    rw [hpl, agree_reaches ag]
    cases hl : m.listener c.name with
    | none => simp only [hl] at sane ⊢; exact set .refused sane
    | some q => simp only [hl] at sane ⊢; exact set (.connected q) sane
  | connected q =>
    have hp' : (clientAt root c).phase = .connected q := by simp [clientAt, hph, guestAt]
    unfold Machine.goClient
    unfold goClient
    rw [hp']
    simp only [hph]
    exact ag
  | refused =>
    have hp' : (clientAt root c).phase = .refused := by simp [clientAt, hph, guestAt]
    unfold Machine.goClient
    unfold goClient
    rw [hp']
    simp only [hph]
    exact ag

theorem agree_step {root : FsPath} (hroot : root ≠ []) {m : Machine} {h : Host} (ag : Agree root m h) (st : Machine.Step) :
    Agree root (m.step st) (step root h (stepAt root st)) := by
  have sane := sane_step ag.sane st
  cases st with
  | server n =>
    refine ⟨by show h.next + 1 = m.next + 1; rw [ag.next], ?_, ag.clients, ag.files, ag.dir, ag.way, sane⟩
    show ∀ q, (h.servers.set h.next _).get q = ((m.servers.set m.next _).get q).map _
    rw [ag.next]
    exact map_set ag.servers m.next _ rfl
  | client n =>
    refine ⟨by show h.next + 1 = m.next + 1; rw [ag.next], ag.servers, ?_, ag.files, ag.dir, ag.way, sane⟩
    show ∀ q, (h.clients.set h.next _).get q = ((m.clients.set m.next _).get q).map _
    rw [ag.next]
    exact map_set ag.clients m.next _ rfl
  | go pid =>
    unfold Machine.step at sane ⊢
    unfold step stepAt
    dsimp only at sane ⊢
    rw [ag.servers]
    cases hs : m.servers.get pid with
    | some p =>
      simp only [hs] at sane ⊢
      exact agree_server hroot ag hs sane
    | none =>
      simp only [hs] at sane ⊢
      dsimp only [Option.map]
      rw [ag.clients]
      cases hc : m.clients.get pid with
      | none => exact ag
      | some c =>
        simp only [hc] at sane ⊢
        exact agree_client ag hc sane
  | lastLeave pid =>
    unfold Machine.step at sane ⊢
    unfold step stepAt
    dsimp only at sane ⊢
    rw [ag.servers]
    cases hs : m.servers.get pid with
    | none => exact ag
    | some p =>
      simp only [hs] at sane ⊢
      dsimp only [Option.map]
      by_cases hp : p.phase = .listening
      · rw [if_pos hp] at sane ⊢
        have : (serverAt root p).phase = .listening := by simp [serverAt, hp, phaseAt]
        rw [if_pos this]
        exact ⟨ag.next, map_set ag.servers pid { p with phase := .ending } rfl, ag.clients, ag.files, ag.dir, ag.way, sane⟩
      · rw [if_neg hp]
        have : (serverAt root p).phase ≠ .listening := by
          cases hx : p.phase <;> simp_all [serverAt, phaseAt]
        rw [if_neg this]
        exact ag
  | crash pid => exact agree_gone ag pid sane

/-- C98: with sessions of plain names only, the machine with paths and the one of C79 and C80 do the same, step by step: the
same names are listed, the same servers are reached, and the processes are in the same phases.  So C79 and C80 hold on it. -/
theorem C98_plain {root : FsPath} (hroot : root ≠ []) {fs : Assoc FsPath Node} (hnew : fs.get root = none)
    (hbelow : ∀ n, fs.get (root ++ [n]) = none) (hway : ∀ q, q ≠ [] → q <+: root → q ≠ root → fs.get q = some .dir)
    (steps : List Machine.Step) :
    (∀ n, n ∈ (run root (booted fs) (steps.map (stepAt root))).list root ↔ n ∈ (Machine.fresh.run steps).list) ∧
    (∀ n, (run root (booted fs) (steps.map (stepAt root))).reaches (.socket root n) = (Machine.fresh.run steps).listener n) ∧
    (∀ c, (run root (booted fs) (steps.map (stepAt root))).clients.get c =
      ((Machine.fresh.run steps).clients.get c).map (clientAt root)) ∧
    (∀ q, (run root (booted fs) (steps.map (stepAt root))).servers.get q =
      ((Machine.fresh.run steps).servers.get q).map (serverAt root)) := by
  have key : ∀ (steps : List Machine.Step) (m : Machine) (h : Host), Agree root m h →
      Agree root (m.run steps) (run root h (steps.map (stepAt root))) := by
    intro steps
    induction steps with
    | nil => exact fun m h ag => ag
    | cons st steps ih => exact fun m h ag => ih _ _ (agree_step hroot ag st)
  have ag := key steps Machine.fresh (booted fs) ⟨rfl, fun _ => rfl, fun _ => rfl, hbelow, hnew, hway, reached_sane ⟨[], rfl⟩⟩
  exact ⟨agree_mem hroot ag, agree_reaches ag, ag.clients, ag.servers⟩

/-- The two sessions of the example of C79 on this machine. -/
example : (run rootA (booted filesB) (exampleTwo.map (stepAt rootA))).reaches (.socket rootA str!"a") = some 2 ∧
    (run rootA (booted filesB) (exampleTwo.map (stepAt rootA))).list rootA = [str!"a", str!"b"] := by decide +kernel

/-- The hypotheses of `C98_plain` hold there. -/
example : rootA ≠ [] ∧ filesB.get rootA = none ∧ (∀ n, filesB.get (rootA ++ [n]) = none) ∧
    ∀ q, q ≠ [] → q <+: rootA → q ≠ rootA → filesB.get q = some .dir := by
  refine ⟨by decide, by decide, fun n => ?_, fun q h0 hpre hne => ?_⟩
  · refine leaf (h := booted filesB) (orderly_hosted (root := rootA) ⟨filesB, [], filesB_rooted, rfl⟩).up (by decide) (by decide) n
  · have : q ∈ prefixes rootA := mem_prefixes.2 ⟨h0, hpre⟩
    have hall : ∀ q ∈ prefixes rootA, q ≠ rootA → filesB.get q = some .dir := by decide +kernel
    exact hall q this hne

end Ced.Props
