import Verif.Proofs.Host
import Verif.Props.SessionName

/-!
# C97: sessions at an address
-/

namespace Ced.Props

open SessionName Host

/-- The files of a machine on which no process of ced runs: each one is in a directory, and the sockets are those of
servers of the past (number 0). -/
def Rooted (fs : Assoc FsPath Node) : Prop :=
  ∀ p node, fs.get p = some node →
    p ≠ [] ∧ (p.dropLast = [] ∨ fs.get p.dropLast = some .dir) ∧ ∀ q, node = .socket q → q = 0

/-- A state of the machine reached by any schedule from any files. -/
def Hosted (root : FsPath) (h : Host) : Prop := ∃ fs steps, Rooted fs ∧ h = run root (booted fs) steps

theorem hosted_run {root : FsPath} {h : Host} (hr : Hosted root h) (steps : List Step) : Hosted root (run root h steps) := by
  obtain ⟨fs, s, hf, rfl⟩ := hr
  exact ⟨fs, s ++ steps, hf, (host_run_append ..).symm⟩

/-- Processes have numbers below the next one; an address belongs to the server that has bound it and runs. -/
structure PortsOk (h : Host) : Prop where
  below : ∀ q p, h.servers.get q = some p → q < h.next
  owner : ∀ a q, h.ports.get a = some q → a.port ≠ 0 ∧
    ∃ p, h.servers.get q = some p ∧ p.place = .tcp a ∧ p.phase ≠ .starting
  owned : ∀ q p a, h.servers.get q = some p → p.place = .tcp a → a.port ≠ 0 → p.phase ≠ .starting → h.ports.get a = some q

theorem ports_gone {h : Host} (ok : PortsOk h) (pid : Nat) : PortsOk (h.gone pid) := by
  cases hs : h.servers.get pid with
  | none => rw [gone_none hs]; exact ok
  | some p =>
    refine ⟨fun q p' hq => ?_, fun a q hq => ?_, fun q p' a hq hp ha hph => ?_⟩
    · rw [gone_servers] at hq
      split at hq
      · cases hq
      · rw [gone_next]; exact ok.below q p' hq
    · rw [gone_ports hs] at hq
      split at hq
      · cases hq
      · rename_i hn
        obtain ⟨h0, p', hp', hpl, hph⟩ := ok.owner a q hq
        refine ⟨h0, p', ?_, hpl, hph⟩
        rw [gone_servers, if_neg, hp']
        rintro rfl
        rw [hs] at hp'
        cases hp'
        exact hn ⟨hpl, hq⟩
    · rw [gone_servers] at hq
      split at hq
      · cases hq
      · rename_i hne
        have := ok.owned q p' a hq hp ha hph
        rw [gone_ports hs, if_neg, this]
        rintro ⟨_, h2⟩
        rw [this] at h2
        cases h2
        exact hne rfl

/-- A change of the phase of a server that is not a first call keeps the addresses. -/
theorem ports_phase {h : Host} (ok : PortsOk h) {pid : Nat} {p v : HostServer} (hp : h.servers.get pid = some p)
    (hv : v.place = p.place) (hph : (∀ a, p.place ≠ .tcp a) ∨ (p.phase ≠ .starting ∧ v.phase ≠ .starting)) (fs : Assoc FsPath Node) :
    PortsOk { h with fs := fs, servers := h.servers.set pid v } := by
  refine ⟨fun q p' hq => ?_, fun a q hq => ?_, fun q p' a hq hpl ha hn => ?_⟩
  · have hq : (h.servers.set pid v).get q = some p' := hq
    rw [Assoc.get_set] at hq
    split at hq
    · rename_i e; rw [e]; exact ok.below pid p hp
    · exact ok.below q p' hq
  · obtain ⟨h0, p', hp', hpl, hn⟩ := ok.owner a q hq
    by_cases e : q = pid
    · subst e
      rw [hp] at hp'
      cases hp'
      refine ⟨h0, v, Assoc.get_set_self .., by rw [hv]; exact hpl, ?_⟩
      rcases hph with hph | hph
      · exact absurd hpl (hph a)
      · exact hph.2
    · exact ⟨h0, p', by show (h.servers.set pid v).get q = _; rw [Assoc.get_set_ne _ e]; exact hp', hpl, hn⟩
  · have hq : (h.servers.set pid v).get q = some p' := hq
    rw [Assoc.get_set] at hq
    split at hq
    · rename_i e
      cases hq
      rw [e]
      rcases hph with hph | hph
      · exact absurd (hv ▸ hpl) (hph a)
      · exact ok.owned pid p a hp (hv ▸ hpl) ha hph.1
    · exact ok.owned q p' a hq hpl ha hn

theorem ports_fs {h : Host} (ok : PortsOk h) (fs : Assoc FsPath Node) : PortsOk { h with fs := fs } :=
  ⟨ok.below, ok.owner, ok.owned⟩

theorem ports_step {root : FsPath} {h : Host} (ok : PortsOk h) (st : Step) : PortsOk (step root h st) := by
  obtain ⟨hn, hm⟩ := step_moved root h st
  cases hm with
  | idle fs ports servers =>
    refine ⟨?_, ?_, ?_⟩
    · rw [servers]; exact fun q p hq => Nat.lt_of_lt_of_le (ok.below q p hq) hn
    · rw [servers, ports]; exact ok.owner
    · rw [servers, ports]; exact ok.owned
  | spawn place fs ports servers next why =>
    have hnew : ∀ q p, h.servers.get q = some p → (h.servers.set h.next ⟨place, .starting, false⟩).get q = some p := by
      intro q p hq
      rw [Assoc.get_set_ne _ (Nat.ne_of_lt (ok.below q p hq)), hq]
    refine ⟨?_, ?_, ?_⟩
    · rw [servers]
      intro q p hq
      rw [Assoc.get_set] at hq
      split at hq
      · rename_i e; rw [e]; exact next
      · exact Nat.lt_trans (ok.below q p hq) next
    · rw [servers, ports]
      intro a q hq
      obtain ⟨h0, p, hp, hpl, hph⟩ := ok.owner a q hq
      exact ⟨h0, p, hnew q p hp, hpl, hph⟩
    · rw [servers, ports]
      intro q p a hq hpl ha hph
      rw [Assoc.get_set] at hq
      split at hq
      · cases hq; exact absurd rfl hph
      · exact ok.owned q p a hq hpl ha hph
  | server pid p call at_ eq =>
    rw [eq]
    cases hpl : p.place with
    | tcp a =>
      rcases goServer_tcp (root := root) (h := h) (pid := pid) hpl with ⟨hph, h0, e⟩ | ⟨hph, h0, _, e⟩ | ⟨hph, h0, hf, e⟩ | ⟨_, e⟩ | ⟨_, _, e⟩ <;> rw [e]
      · refine ⟨fun q p' hq => ?_, fun b q hq => ?_, fun q p' b hq hpl' hb hn' => ?_⟩
        · have hq : (h.servers.set pid _).get q = some p' := hq
          rw [Assoc.get_set] at hq
          split at hq
          · rename_i e; rw [e]; exact ok.below pid p at_
          · exact ok.below q p' hq
        · obtain ⟨h0', p', hp', hpl', hn'⟩ := ok.owner b q hq
          refine ⟨h0', p', ?_, hpl', hn'⟩
          show (h.servers.set pid _).get q = _
          rw [Assoc.get_set_ne _ _, hp']
          rintro rfl
          rw [at_] at hp'
          cases hp'
          exact hn' hph
        · have hq : (h.servers.set pid _).get q = some p' := hq
          rw [Assoc.get_set] at hq
          split at hq
          · cases hq
            have : Place.tcp a = .tcp b := hpl ▸ hpl'
            cases this
            exact absurd h0 hb
          · exact ok.owned q p' b hq hpl' hb hn'
      · exact ports_gone ok pid
      · refine ⟨fun q p' hq => ?_, fun b q hq => ?_, fun q p' b hq hpl' hb hn' => ?_⟩
        · have hq : (h.servers.set pid _).get q = some p' := hq
          rw [Assoc.get_set] at hq
          split at hq
          · rename_i e; rw [e]; exact ok.below pid p at_
          · exact ok.below q p' hq
        · have hq : (h.ports.set a pid).get b = some q := hq
          rw [Assoc.get_set] at hq
          split at hq
          · rename_i e
            cases hq
            exact ⟨e ▸ h0, _, Assoc.get_set_self .., by rw [e]; exact hpl, by simp⟩
          · obtain ⟨h0', p', hp', hpl', hn'⟩ := ok.owner b q hq
            refine ⟨h0', p', ?_, hpl', hn'⟩
            show (h.servers.set pid _).get q = _
            rw [Assoc.get_set_ne _ _, hp']
            rintro rfl
            rw [at_] at hp'
            cases hp'
            exact hn' hph
        · have hq : (h.servers.set pid _).get q = some p' := hq
          show (h.ports.set a pid).get b = some q
          rw [Assoc.get_set] at hq
          split at hq
          · rename_i e
            cases hq
            have : Place.tcp a = .tcp b := hpl ▸ hpl'
            cases this
            rw [Assoc.get_set_self, e]
          · have := ok.owned q p' b hq hpl' hb hn'
            rw [Assoc.get_set_ne _ _, this]
            rintro rfl
            rw [hf] at this
            cases this
      · exact ok
      · exact ports_gone ok pid
    | socket d n =>
      have hno : ∀ a, p.place ≠ .tcp a := by intro a e; rw [hpl] at e; cases e
      rcases goServer_socket (root := root) (h := h) (pid := pid) hpl with ⟨_, _, e⟩ | ⟨_, _, _, e⟩ | ⟨_, _, e⟩ | ⟨_, _, _, e⟩ |
        ⟨_, _, e⟩ | ⟨_, e⟩ | ⟨_, _, e⟩ | ⟨_, _, e⟩ | ⟨_, _, e⟩ | ⟨_, _, e⟩ | ⟨_, _, _, e⟩ | ⟨_, _, e⟩ <;> rw [e]
      · exact ports_phase ok at_ (by rfl) (.inl hno) h.fs
      · exact ports_phase ok at_ (by rfl) (.inl hno) _
      · exact ports_phase ok at_ (by rfl) (.inl hno) h.fs
      · exact ports_phase ok at_ (by rfl) (.inl hno) _
      · exact ports_phase ok at_ (by rfl) (.inl hno) h.fs
      · exact ok
      · exact ports_gone ok pid
      · exact ports_phase ok at_ (by rfl) (.inl hno) _
      · exact ports_phase ok at_ (by rfl) (.inl hno) h.fs
      · exact ports_gone ok pid
      · exact ports_fs (ports_gone ok pid) _
      · exact ports_gone ok pid
  | leave pid p call at_ listens eq =>
    rw [eq]
    exact ports_phase ok at_ (by rfl) (.inr ⟨by rw [listens]; simp, by simp⟩) h.fs
  | crash pid call eq => rw [eq]; exact ports_gone ok pid
  | make dir name node call dirs new plain eq => rw [eq]; exact ports_fs ok _
  | remove path call empty eq => rw [eq]; exact ports_fs ok _

theorem ports_hosted {root : FsPath} {h : Host} (hr : Hosted root h) : PortsOk h := by
  obtain ⟨fs, steps, _, rfl⟩ := hr
  refine host_run_invariant (P := PortsOk) (ok := fun _ => True) (fun h st hP _ => ports_step hP st) ?_ fun _ _ => trivial
  exact ⟨fun q p hq => (by cases hq), fun a q hq => (by cases hq), fun q p a hq => (by cases hq)⟩

/-- Clients have numbers below the next one. -/
theorem guests_step {root : FsPath} {h : Host} (ok : ∀ c g, h.clients.get c = some g → c < h.next) (st : Step) :
    ∀ c g, (step root h st).clients.get c = some g → c < (step root h st).next := by
  have hn := (step_moved root h st).1
  have same : (step root h st).clients = h.clients → ∀ c g, (step root h st).clients.get c = some g → c < (step root h st).next := by
    intro e c g hg
    rw [e] at hg
    exact Nat.lt_of_lt_of_le (ok c g hg) hn
  cases st with
  | server place => exact same rfl
  | client place =>
    intro c g hg
    have hg : (h.clients.set h.next _).get c = some g := hg
    rw [Assoc.get_set] at hg
    split at hg
    · rename_i e; rw [e]; exact Nat.lt_succ_self _
    · exact Nat.lt_succ_of_lt (ok c g hg)
  | crash pid => exact same (gone_clients _ _)
  | lastLeave pid =>
    refine same ?_
    simp only [step]
    repeat' split
    all_goals rfl
  | make dir name node =>
    refine same ?_
    simp only [step]
    repeat' split
    all_goals rfl
  | remove path =>
    refine same ?_
    simp only [step]
    repeat' split
    all_goals rfl
  | go pid =>
    cases hs : h.servers.get pid with
    | some p =>
      refine same ?_
      have e : step root h (.go pid) = goServer root h pid p := by simp only [step, hs]
      rw [e]; exact goServer_clients ..
    | none =>
      cases hc : h.clients.get pid with
      | none =>
        refine same ?_
        have e : step root h (.go pid) = h := by simp only [step, hs, hc]
        rw [e]
      | some x =>
        have e : step root h (.go pid) = goClient root h pid x := by simp only [step, hs, hc]
        intro c g hg
        refine Nat.lt_of_lt_of_le ?_ hn
        rw [e] at hg
        by_cases ec : c = pid
        · rw [ec]; exact ok pid x hc
        · have : (goClient root h pid x).clients.get c = h.clients.get c := by
            unfold goClient
            repeat' split
            all_goals first | rfl | exact Assoc.get_set_ne _ ec
          rw [this] at hg
          exact ok c g hg

theorem guests_hosted {root : FsPath} {h : Host} (hr : Hosted root h) : ∀ c g, h.clients.get c = some g → c < h.next := by
  obtain ⟨fs, steps, _, rfl⟩ := hr
  refine host_run_invariant (P := fun h : Host => ∀ c g, h.clients.get c = some g → c < h.next) (ok := fun _ => True)
    (fun h st hP _ => guests_step hP st) ?_ fun _ _ => trivial
  intro c g hg; cases hg

/-- A number that is no server's stays so. -/
theorem unserved_step {root : FsPath} {h : Host} {c : Nat} (hc : c < h.next) (hs : h.servers.get c = none) (st : Step) :
    (step root h st).servers.get c = none := by
  have gone : ∀ pid, (h.gone pid).servers.get c = none := fun pid => by rw [gone_servers]; split <;> simp [hs]
  have set : ∀ pid p v, h.servers.get pid = some p → (h.servers.set pid v).get c = none := by
    intro pid p v hp
    rw [Assoc.get_set_ne _ _, hs]
    rintro rfl
    rw [hs] at hp
    cases hp
  cases (step_moved root h st).2 with
  | idle fs ports servers => rw [servers]; exact hs
  | spawn place fs ports servers next why => rw [servers, Assoc.get_set_ne _ (Nat.ne_of_lt hc), hs]
  | server pid p call at_ eq =>
    rw [eq]
    cases hpl : p.place with
    | tcp a =>
      rcases goServer_tcp (root := root) (h := h) (pid := pid) hpl with ⟨_, _, e⟩ | ⟨_, _, _, e⟩ | ⟨_, _, _, e⟩ | ⟨_, e⟩ | ⟨_, _, e⟩ <;> rw [e]
      · exact set pid p _ at_
      · exact gone pid
      · exact set pid p _ at_
      · exact hs
      · exact gone pid
    | socket d n =>
      rcases goServer_socket (root := root) (h := h) (pid := pid) hpl with ⟨_, _, e⟩ | ⟨_, _, _, e⟩ | ⟨_, _, e⟩ | ⟨_, _, _, e⟩ |
        ⟨_, _, e⟩ | ⟨_, e⟩ | ⟨_, _, e⟩ | ⟨_, _, e⟩ | ⟨_, _, e⟩ | ⟨_, _, e⟩ | ⟨_, _, _, e⟩ | ⟨_, _, e⟩ <;> rw [e]
      all_goals first | exact set pid p _ at_ | exact gone pid | exact hs
  | leave pid p call at_ listens eq => rw [eq]; exact set pid p _ at_
  | crash pid call eq => rw [eq]; exact gone pid
  | make dir name node call dirs new plain eq => rw [eq]; exact hs
  | remove path call empty eq => rw [eq]; exact hs

/-- What a client gets when it connects. -/
def gets (h : Host) (place : Place) : GuestPhase :=
  match h.reaches place with
  | some q => .connected q
  | none => .refused

/-- A client that comes for this place starts no server and gets this. -/
def Gives (place : Place) (final : GuestPhase) (h : Host) : Prop :=
  (∀ d n, place = .socket d n → h.pathExists (d ++ [n]) = true) ∧ gets h place = final

/-- The phase of a client after so many of its own system calls. -/
def guestAfter (final : GuestPhase) : Nat → GuestPhase
  | 0 => .checking
  | 1 => .connecting
  | _ => final

/-- A client that has done so many calls. -/
structure Visits (place : Place) (final : GuestPhase) (c k : Nat) (h : Host) : Prop where
  below : c < h.next
  client : h.servers.get c = none
  phase : h.clients.get c = some ⟨place, guestAfter final k⟩

theorem gets_final (h : Host) (place : Place) : (∃ q, gets h place = .connected q) ∨ gets h place = .refused := by
  unfold gets
  split
  · exact .inl ⟨_, rfl⟩
  · exact .inr rfl

theorem visits_step {root : FsPath} {place : Place} {final : GuestPhase} {c k : Nat} {h : Host} (hg : Gives place final h)
    (hv : Visits place final c k h) (st : Step) :
    Visits place final c (if st = .go c then k + 1 else k) (step root h st) := by
  obtain ⟨hb, hs, hph⟩ := hv
  have hnext := (step_moved root h st).1
  refine ⟨Nat.lt_of_lt_of_le hb hnext, unserved_step hb hs st, ?_⟩
  have same : st ≠ .go c → (step root h st).clients.get c = h.clients.get c →
      (step root h st).clients.get c = some ⟨place, guestAfter final (if st = .go c then k + 1 else k)⟩ := by
    intro hne e
    rw [e, if_neg hne, hph]
  cases st with
  | server p => exact same (by simp) rfl
  | client p =>
    refine same (by simp) ?_
    exact Assoc.get_set_ne _ (Nat.ne_of_lt hb)
  | crash pid => exact same (by simp) (by show (h.gone pid).clients.get c = _; rw [gone_clients])
  | lastLeave pid =>
    refine same (by simp) ?_
    simp only [step]
    repeat' split
    all_goals rfl
  | make dir name node =>
    refine same (by simp) ?_
    simp only [step]
    repeat' split
    all_goals rfl
  | remove path =>
    refine same (by simp) ?_
    simp only [step]
    repeat' split
    all_goals rfl
  | go pid =>
    by_cases e : pid = c
    · subst e
      rw [if_pos rfl]
      have e : step root h (.go pid) = goClient root h pid ⟨place, guestAfter final k⟩ := by simp only [step, hs, hph]
      rw [e]
      match k with
      | 0 =>
        have e2 : goClient root h pid ⟨place, guestAfter final 0⟩ =
            { h with clients := h.clients.set pid ⟨place, .connecting⟩ } := by
          cases hpl : place with
          | tcp a => rfl
          | socket d n => simp only [goClient, guestAfter, hg.1 d n hpl, if_true]
        rw [e2]
        exact Assoc.get_set_self ..
      | 1 =>
        have e2 : goClient root h pid ⟨place, guestAfter final 1⟩ = { h with clients := h.clients.set pid ⟨place, final⟩ } := by
          rw [← hg.2]
          unfold goClient gets
          dsimp only [guestAfter]
          cases h.reaches place <;> rfl
        rw [e2]
        exact Assoc.get_set_self ..
      | k + 2 =>
        have e2 : goClient root h pid ⟨place, guestAfter final (k + 2)⟩ = h := by
          have hf : guestAfter final (k + 2) = final := rfl
          rw [hf]
          rcases gets_final h place with ⟨q, hq⟩ | hq <;> rw [hg.2] at hq <;> rw [hq] <;> rfl
        rw [e2]
        exact hph
    · refine same (fun x => e (by cases x; rfl)) ?_
      cases hsp : h.servers.get pid with
      | some p =>
        have e : step root h (.go pid) = goServer root h pid p := by simp only [step, hsp]
        rw [e, goServer_clients]
      | none =>
        cases hcp : h.clients.get pid with
        | none =>
          have e : step root h (.go pid) = h := by simp only [step, hsp, hcp]
          rw [e]
        | some x =>
          have e2 : step root h (.go pid) = goClient root h pid x := by simp only [step, hsp, hcp]
          rw [e2]
          unfold goClient
          repeat' split
          all_goals first | rfl | exact Assoc.get_set_ne _ (fun x => e x.symm)

/-- How many of the steps are calls of this process. -/
def turnsOf (c : Nat) (steps : List Step) : Nat := (steps.filter (· = .go c)).length

theorem visits_run {root : FsPath} {place : Place} {final : GuestPhase} {c : Nat} {I : Host → Prop} {ok : Step → Prop}
    (hI : ∀ h st, I h → ok st → I (step root h st)) (hG : ∀ h, I h → Gives place final h) :
    ∀ (steps : List Step) (h : Host) (k : Nat), I h → Visits place final c k h → (∀ st ∈ steps, ok st) →
      I (run root h steps) ∧ Visits place final c (k + turnsOf c steps) (run root h steps) := by
  intro steps
  induction steps with
  | nil => intro h k hi hv _; exact ⟨hi, hv⟩
  | cons st steps ih =>
    intro h k hi hv hok
    have h1 := hI h st hi (hok st List.mem_cons_self)
    have h2 := visits_step (root := root) (hG h hi) hv st
    obtain ⟨h3, h4⟩ := ih _ _ h1 h2 fun s hs => hok s (List.mem_cons_of_mem _ hs)
    refine ⟨h3, ?_⟩
    have : (if st = .go c then k + 1 else k) + turnsOf c steps = k + turnsOf c (st :: steps) := by
      simp only [turnsOf, List.filter_cons]
      split
      · rename_i e; rw [if_pos (by simpa using e)]; simp only [List.length_cons]; omega
      · rename_i e; rw [if_neg (by simpa using e)]
    rw [← this]
    exact h4

theorem visits_new {root : FsPath} {h : Host} (hr : Hosted root h) (place : Place) (final : GuestPhase) :
    Visits place final h.next 0 (step root h (.client place)) := by
  refine ⟨Nat.lt_succ_self _, ?_, Assoc.get_set_self ..⟩
  show h.servers.get h.next = none
  cases hs : h.servers.get h.next with
  | none => rfl
  | some p => exact absurd ((ports_hosted hr).below _ p hs) (Nat.lt_irrefl _)

theorem guestAfter_two {final : GuestPhase} {k : Nat} (h : 2 ≤ k) : guestAfter final k = final := by
  obtain ⟨k, rfl⟩ := Nat.exists_eq_add_of_le h
  rw [Nat.add_comm]; rfl

theorem reaches_tcp {h : Host} {a : Addr} {pid : Nat} : h.reaches (.tcp a) = some pid ↔
    h.ports.get a = some pid ∧ ∃ p, h.servers.get pid = some p ∧ p.phase = .listening := by
  unfold reaches
  dsimp only
  cases hp : h.ports.get a with
  | none => simp
  | some q =>
    dsimp only
    cases hs : h.servers.get q with
    | none =>
      constructor
      · intro x; cases x
      · rintro ⟨e, p, hp', _⟩; cases e; rw [hs] at hp'; cases hp'
    | some p =>
      dsimp only
      by_cases hph : p.phase = .listening
      · rw [if_pos hph]
        constructor
        · intro e; cases e; exact ⟨rfl, p, hs, hph⟩
        · rintro ⟨e, _⟩; exact e
      · rw [if_neg hph]
        constructor
        · intro x; cases x
        · rintro ⟨e, p', hp', hl⟩; cases e; rw [hs] at hp'; cases hp'; exact absurd hl hph

/-- The server has this address and listens. -/
structure Serves (a : Addr) (pid : Nat) (h : Host) : Prop where
  ok : PortsOk h
  port : h.ports.get a = some pid
  proc : ∃ p, h.servers.get pid = some p ∧ p.place = .tcp a ∧ p.phase = .listening

theorem serves_reaches {a : Addr} {pid : Nat} {h : Host} (hs : Serves a pid h) : h.reaches (.tcp a) = some pid := by
  obtain ⟨p, h1, _, h2⟩ := hs.proc
  exact reaches_tcp.2 ⟨hs.port, p, h1, h2⟩

theorem serves_of {root : FsPath} {h : Host} (hr : Hosted root h) {a : Addr} {pid : Nat} (hl : h.reaches (.tcp a) = some pid) :
    Serves a pid h := by
  obtain ⟨hp, p, hs, hph⟩ := reaches_tcp.1 hl
  obtain ⟨_, p', hs', hpl, _⟩ := (ports_hosted hr).owner a pid hp
  rw [hs] at hs'
  cases hs'
  exact ⟨ports_hosted hr, hp, p, hs, hpl, hph⟩

theorem serves_step {root : FsPath} {a : Addr} {pid : Nat} {h : Host} (hs : Serves a pid h) {st : Step}
    (h1 : st ≠ .lastLeave pid) (h2 : st ≠ .crash pid) : Serves a pid (step root h st) := by
  obtain ⟨ok, hport, p, hp, hpl, hph⟩ := hs
  have ok' := ports_step (root := root) ok st
  have hlt := ok.below pid p hp
  -- another process ends
  have other : ∀ q, q ≠ pid → Serves a pid (h.gone q) := by
    intro q hq
    refine ⟨ports_gone ok q, ?_, p, ?_, hpl, hph⟩
    · cases hsq : h.servers.get q with
      | none => rw [gone_none hsq]; exact hport
      | some x =>
        rw [gone_ports hsq, if_neg, hport]
        rintro ⟨_, e⟩
        rw [hport] at e
        cases e
        exact hq rfl
    · rw [gone_servers, if_neg (fun e => hq e.symm), hp]
  have change : ∀ q v, q ≠ pid → (h.servers.set q v).get pid = some p := fun q v hq => by
    rw [Assoc.get_set_ne _ (fun e => hq e.symm), hp]
  cases (step_moved root h st).2 with
  | idle fs ports servers => exact ⟨ok', by rw [ports]; exact hport, p, by rw [servers]; exact hp, hpl, hph⟩
  | spawn place fs ports servers next why =>
    exact ⟨ok', by rw [ports]; exact hport, p, by rw [servers]; exact change _ _ (Nat.ne_of_gt hlt), hpl, hph⟩
  | server q p' call at_ eq =>
    by_cases hq : q = pid
    · subst hq
      rw [hp] at at_
      cases at_
      rcases goServer_tcp (root := root) (h := h) (pid := q) hpl with ⟨x, _, e⟩ | ⟨x, _, _, e⟩ | ⟨x, _, _, e⟩ | ⟨_, e⟩ | ⟨_, x, e⟩
      · rw [hph] at x; cases x
      · rw [hph] at x; cases x
      · rw [hph] at x; cases x
      · rw [eq, e]; exact ⟨ok, hport, p, hp, hpl, hph⟩
      · exact absurd hph x
    · rw [eq] at ok' ⊢
      cases hpl' : p'.place with
      | tcp b =>
        rcases goServer_tcp (root := root) (h := h) (pid := q) hpl' with ⟨_, _, e⟩ | ⟨_, _, _, e⟩ | ⟨_, _, hf, e⟩ | ⟨_, e⟩ | ⟨_, _, e⟩ <;> rw [e] at ok' ⊢
        · exact ⟨ok', hport, p, change _ _ hq, hpl, hph⟩
        · exact other q hq
        · refine ⟨ok', ?_, p, change _ _ hq, hpl, hph⟩
          show (h.ports.set b q).get a = _
          rw [Assoc.get_set_ne _ _, hport]
          rintro rfl
          rw [hport] at hf
          cases hf
        · exact ⟨ok, hport, p, hp, hpl, hph⟩
        · exact other q hq
      | socket d n =>
        rcases goServer_socket (root := root) (h := h) (pid := q) hpl' with ⟨_, _, e⟩ | ⟨_, _, _, e⟩ | ⟨_, _, e⟩ | ⟨_, _, _, e⟩ |
          ⟨_, _, e⟩ | ⟨_, e⟩ | ⟨_, _, e⟩ | ⟨_, _, e⟩ | ⟨_, _, e⟩ | ⟨_, _, e⟩ | ⟨_, _, _, e⟩ | ⟨_, _, e⟩ <;> rw [e] at ok' ⊢
        all_goals first
          | exact ⟨ok', hport, p, change _ _ hq, hpl, hph⟩
          | exact other q hq
          | exact ⟨ok, hport, p, hp, hpl, hph⟩
          | exact ⟨ok', (other q hq).port, (other q hq).proc⟩
  | leave q p' call at_ listens eq =>
    have hq : q ≠ pid := by rintro rfl; exact h1 call
    rw [eq] at ok' ⊢
    exact ⟨ok', hport, p, change _ _ hq, hpl, hph⟩
  | crash q call eq =>
    have hq : q ≠ pid := by rintro rfl; exact h2 call
    rw [eq]; exact other q hq
  | make dir name node call dirs new plain eq => rw [eq]; exact ⟨ports_fs ok _, hport, p, hp, hpl, hph⟩
  | remove path call empty eq => rw [eq]; exact ⟨ports_fs ok _, hport, p, hp, hpl, hph⟩

/-- C97: a server that listens at an address keeps it until its last client leaves or it crashes, whatever the other
processes do, also when other servers are started for the same address. -/
theorem C97_keeps {root : FsPath} {h : Host} (hr : Hosted root h) {a : Addr} {pid : Nat} (hl : h.reaches (.tcp a) = some pid)
    {steps : List Step} (hst : ∀ st ∈ steps, st ≠ .lastLeave pid ∧ st ≠ .crash pid) :
    (run root h steps).reaches (.tcp a) = some pid :=
  serves_reaches (host_run_invariant (P := Serves a pid) (ok := fun st => st ≠ .lastLeave pid ∧ st ≠ .crash pid)
    (fun _ _ hP hok => serves_step hP hok.1 hok.2) (serves_of hr hl) hst)

/-- C97: a client that comes for it is connected to it after two system calls of its own. -/
theorem C97_connects {root : FsPath} {h : Host} (hr : Hosted root h) {a : Addr} {pid : Nat} (hl : h.reaches (.tcp a) = some pid)
    {steps : List Step} (hst : ∀ st ∈ steps, st ≠ .lastLeave pid ∧ st ≠ .crash pid) (hcalls : 2 ≤ turnsOf h.next steps) :
    (run root h (.client (.tcp a) :: steps)).clients.get h.next = some ⟨.tcp a, .connected pid⟩ := by
  have h0 : Serves a pid (step root h (.client (.tcp a))) := serves_step (serves_of hr hl) (by simp) (by simp)
  obtain ⟨_, hv⟩ := visits_run (root := root) (place := .tcp a) (final := .connected pid) (c := h.next) (I := Serves a pid)
    (ok := fun st => st ≠ .lastLeave pid ∧ st ≠ .crash pid) (fun _ _ hP hok => serves_step hP hok.1 hok.2)
    (fun h' hs => ⟨fun d n e => (by cases e), by unfold gets; rw [serves_reaches hs]⟩) steps _ 0 h0 (visits_new hr _ _) hst
  have := hv.phase
  rw [guestAfter_two (by omega)] at this
  exact this

/-- C97: another server that is started for an address in use ends at its first call and changes nothing else. -/
theorem C97_second {root : FsPath} {h : Host} (hr : Hosted root h) {a : Addr} {pid q : Nat} (hl : h.reaches (.tcp a) = some pid)
    {p : HostServer} (hq : h.servers.get q = some p) (hpl : p.place = .tcp a) (hph : p.phase = .starting) :
    step root h (.go q) = { h with servers := h.servers.del q } := by
  have hs := serves_of hr hl
  have e : step root h (.go q) = goServer root h q p := by simp only [step, hq]
  have h0 := (hs.ok.owner a pid hs.port).1
  have hne : ¬ h.ports.get a = some q := by
    intro e
    rw [hs.port] at e
    cases e
    obtain ⟨p', hp', _, hph'⟩ := hs.proc
    rw [hq] at hp'
    cases hp'
    rw [hph] at hph'
    cases hph'
  rcases goServer_tcp (root := root) (h := h) (pid := q) hpl with ⟨_, x, _⟩ | ⟨_, _, _, e2⟩ | ⟨_, _, x, _⟩ | ⟨x, _⟩ | ⟨x, _⟩
  · exact absurd x h0
  · rw [e, e2]
    unfold gone
    rw [hq]
    dsimp only
    rw [hpl]
    dsimp only
    rw [if_neg hne]
  · rw [hs.port] at x; cases x
  · rw [hph] at x; cases x
  · exact absurd hph x

/-- C97: at most one server listens at an address. -/
theorem C97_one {root : FsPath} {h : Host} (hr : Hosted root h) {a : Addr} (ha : a.port ≠ 0) {q q' : Nat} {p p' : HostServer}
    (hq : h.servers.get q = some p) (hpl : p.place = .tcp a) (hph : p.phase = .listening)
    (hq' : h.servers.get q' = some p') (hpl' : p'.place = .tcp a) (hph' : p'.phase = .listening) : q = q' := by
  have h1 := (ports_hosted hr).owned q p a hq hpl ha (by rw [hph]; simp)
  have h2 := (ports_hosted hr).owned q' p' a hq' hpl' ha (by rw [hph']; simp)
  rw [h1] at h2
  exact Option.some.inj h2

/-- No server for this address. -/
def Unserved (a : Addr) (h : Host) : Prop := ∀ q p, h.servers.get q = some p → p.place ≠ .tcp a

theorem unserved_addr {root : FsPath} {h : Host} {a : Addr} (hu : Unserved a h) {st : Step} (hst : st ≠ .server (.tcp a)) :
    Unserved a (step root h st) := by
  have set : ∀ pid p v, h.servers.get pid = some p → v.place = p.place → ∀ q p', (h.servers.set pid v).get q = some p' → p'.place ≠ .tcp a := by
    intro pid p v hp hv q p' hq
    rw [Assoc.get_set] at hq
    split at hq
    · cases hq; rw [hv]; exact hu pid p hp
    · exact hu q p' hq
  have gone : ∀ pid, Unserved a (h.gone pid) := by
    intro pid q p' hq
    rw [gone_servers] at hq
    split at hq
    · cases hq
    · exact hu q p' hq
  cases (step_moved root h st).2 with
  | idle fs ports servers => intro q p; rw [servers]; exact hu q p
  | spawn place fs ports servers next why =>
    intro q p hq
    rw [servers, Assoc.get_set] at hq
    split at hq
    · cases hq
      rcases why with rfl | ⟨_, _, _, _, _, _, _, _, _, rfl⟩
      · intro (e : place = _); exact hst (by rw [e])
      · intro (e : Place.socket _ _ = _); cases e
    · exact hu q p hq
  | server pid p call at_ eq =>
    rw [eq]
    cases hpl : p.place with
    | tcp b =>
      rcases goServer_tcp (root := root) (h := h) (pid := pid) hpl with ⟨_, _, e⟩ | ⟨_, _, _, e⟩ | ⟨_, _, _, e⟩ | ⟨_, e⟩ | ⟨_, _, e⟩ <;> rw [e]
      · exact set pid p _ at_ (by rfl)
      · exact gone pid
      · exact set pid p _ at_ (by rfl)
      · exact hu
      · exact gone pid
    | socket d n =>
      rcases goServer_socket (root := root) (h := h) (pid := pid) hpl with ⟨_, _, e⟩ | ⟨_, _, _, e⟩ | ⟨_, _, e⟩ | ⟨_, _, _, e⟩ |
        ⟨_, _, e⟩ | ⟨_, e⟩ | ⟨_, _, e⟩ | ⟨_, _, e⟩ | ⟨_, _, e⟩ | ⟨_, _, e⟩ | ⟨_, _, _, e⟩ | ⟨_, _, e⟩ <;> rw [e]
      all_goals first | exact set pid p _ at_ (by rfl) | exact gone pid | exact hu
  | leave pid p call at_ listens eq => rw [eq]; exact set pid p _ at_ (by rfl)
  | crash pid call eq => rw [eq]; exact gone pid
  | make dir name node call dirs new plain eq => rw [eq]; exact hu
  | remove path call empty eq => rw [eq]; exact hu

/-- C97: no client ever starts a server for an address: as long as nobody starts one by hand there is none, and every client
that comes for it is refused after two system calls of its own. -/
theorem C97_refused {root : FsPath} {h : Host} (hr : Hosted root h) {a : Addr} (hu : ∀ q p, h.servers.get q = some p → p.place ≠ .tcp a)
    {steps : List Step} (hst : .server (.tcp a) ∉ steps) :
    (∀ q p, (run root h steps).servers.get q = some p → p.place ≠ .tcp a) ∧
    (2 ≤ turnsOf h.next steps →
      (run root h (.client (.tcp a) :: steps)).clients.get h.next = some ⟨.tcp a, .refused⟩) := by
  have hstep : ∀ h st, (Unserved a h ∧ PortsOk h) → st ≠ .server (.tcp a) → (Unserved a (step root h st) ∧ PortsOk (step root h st)) :=
    fun h st hP hok => ⟨unserved_addr hP.1 hok, ports_step hP.2 st⟩
  have hne : ∀ st ∈ steps, st ≠ .server (.tcp a) := fun st hs e => hst (e ▸ hs)
  refine ⟨(host_run_invariant (P := fun h => Unserved a h ∧ PortsOk h) (ok := fun st => st ≠ .server (.tcp a)) hstep
    ⟨hu, ports_hosted hr⟩ hne).1, fun hcalls => ?_⟩
  obtain ⟨_, hv⟩ := visits_run (root := root) (place := .tcp a) (final := .refused) (c := h.next) (I := fun h => Unserved a h ∧ PortsOk h)
    (ok := fun st => st ≠ .server (.tcp a)) hstep (fun h' hs => ⟨fun d n e => (by cases e), by
      unfold gets
      cases hh : h'.reaches (.tcp a) with
      | none => rfl
      | some q =>
        obtain ⟨_, p, hp, hpl, _⟩ := hs.2.owner a q (reaches_tcp.1 hh).1
        exact absurd hpl (hs.1 q p hp)⟩) steps _ 0 (hstep h (.client (.tcp a)) ⟨hu, ports_hosted hr⟩ (by simp)) (visits_new hr _ _) hne
  have := hv.phase
  rw [guestAfter_two (by omega)] at this
  exact this

/-- The server that is started for an address that nobody has listens there after its first call. -/
theorem fresh_serves {root : FsPath} {h : Host} (hok : PortsOk h) {a : Addr} (ha : a.port ≠ 0) (hf : h.ports.get a = none) :
    (run root h [.server (.tcp a), .go h.next]).reaches (.tcp a) = some h.next := by
  have e1 : step root h (.server (.tcp a)) = h.spawn (.tcp a) := rfl
  have g1 : (h.spawn (.tcp a)).servers.get h.next = some ⟨.tcp a, .starting, false⟩ := Assoc.get_set_self ..
  have hh : h.ports.has a = false := Assoc.has_false.2 hf
  have e2 : step root (h.spawn (.tcp a)) (.go h.next) = { h.spawn (.tcp a) with
      ports := h.ports.set a h.next, servers := (h.spawn (.tcp a)).servers.set h.next ⟨.tcp a, .listening, true⟩ } := by
    have : (h.spawn (.tcp a)).ports.has a = false := hh
    simp only [step, g1, goServer, if_neg ha, this, Bool.false_eq_true, if_false]
    rfl
  have e : run root h [.server (.tcp a), .go h.next] = { h.spawn (.tcp a) with
      ports := h.ports.set a h.next, servers := (h.spawn (.tcp a)).servers.set h.next ⟨.tcp a, .listening, true⟩ } := by
    show step root (step root h (.server (.tcp a))) (.go h.next) = _
    rw [e1, e2]
  rw [e]
  exact reaches_tcp.2 ⟨Assoc.get_set_self .., _, Assoc.get_set_self .., rfl⟩

/-- C97: an address is free again as soon as its server has crashed or ended: the next server that is started for it listens
there (not so for a socket, C80). -/
theorem C97_again {root : FsPath} {h : Host} (hr : Hosted root h) {a : Addr} {pid : Nat} (hl : h.reaches (.tcp a) = some pid) :
    ∀ steps ∈ [[Step.crash pid], [Step.lastLeave pid, Step.go pid]],
      (run root h steps).reaches (.tcp a) = none ∧
      (run root h (steps ++ [.server (.tcp a), .go h.next])).reaches (.tcp a) = some h.next := by
  have hs := serves_of hr hl
  obtain ⟨p, hp, hpl, hph⟩ := hs.proc
  have h0 := (hs.ok.owner a pid hs.port).1
  have fin : ∀ h' : Host, PortsOk h' → h'.next = h.next → h'.ports.get a = none →
      h'.reaches (.tcp a) = none ∧ (run root h' [.server (.tcp a), .go h.next]).reaches (.tcp a) = some h.next := by
    intro h' ok hn hf
    refine ⟨?_, by rw [← hn]; exact fresh_serves ok h0 hf⟩
    unfold reaches
    simp [hf]
  intro steps hst
  rw [host_run_append]
  simp only [List.mem_cons, List.not_mem_nil, or_false] at hst
  rcases hst with rfl | rfl
  · show Host.reaches (h.gone pid) _ = none ∧ _
    refine fin (h.gone pid) (ports_gone hs.ok pid) (gone_next _ _) ?_
    rw [gone_ports hp, if_pos ⟨hpl, hs.port⟩]
  · have e1 : step root h (.lastLeave pid) = { h with servers := h.servers.set pid { p with phase := .ending } } := by
      simp only [step, hp, if_pos hph]
    have g1 : (h.servers.set pid { p with phase := .ending }).get pid = some { p with phase := .ending } := Assoc.get_set_self ..
    have ok1 := ports_step (root := root) hs.ok (.lastLeave pid)
    rw [e1] at ok1
    have e2 : run root h [.lastLeave pid, .go pid] =
        ({ h with servers := h.servers.set pid { p with phase := .ending } } : Host).gone pid := by
      show step root (step root h (.lastLeave pid)) (.go pid) = _
      rw [e1]
      simp only [step, g1, goServer]
      rw [hpl]
    rw [e2]
    refine fin _ (ports_gone ok1 pid) (gone_next _ _) ?_
    rw [gone_ports (h := { h with servers := h.servers.set pid { p with phase := .ending } }) (pid := pid) g1,
      if_pos ⟨hpl, hs.port⟩]

/-- C97: nobody can be reached at the port 0. -/
theorem C97_zero_refuted {root : FsPath} {h : Host} (hr : Hosted root h) {a : Addr} (ha : a.port = 0) : h.reaches (.tcp a) = none := by
  cases hh : h.reaches (.tcp a) with
  | none => rfl
  | some q => exact absurd ha ((ports_hosted hr).owner a q (reaches_tcp.1 hh).1).1

/-- A process of a session at an address. -/
def AtAddress (h : Host) : Step → Prop
  | .server place => ∃ a, place = .tcp a
  | .client place => ∃ a, place = .tcp a
  | .go pid => (∀ p, h.servers.get pid = some p → ∃ a, p.place = .tcp a) ∧ (∀ g, h.clients.get pid = some g → ∃ a, g.place = .tcp a)
  | .lastLeave _ => True
  | .crash _ => True
  | .make _ _ _ => False
  | .remove _ => False

/-- C97: the servers and clients of an address leave the file system as it is, so sessions at an address are not listed. -/
theorem C97_files {root : FsPath} {h : Host} {st : Step} (hst : AtAddress h st) :
    (step root h st).fs = h.fs ∧ (step root h st).list root = h.list root := by
  have key : (step root h st).fs = h.fs := by
    cases (step_moved root h st).2 with
    | idle fs ports servers => exact fs
    | spawn place fs ports servers next why => exact fs
    | server pid p call at_ eq =>
      rw [eq]
      rw [call] at hst
      obtain ⟨a, hpl⟩ := hst.1 p at_
      rcases goServer_tcp (root := root) (h := h) (pid := pid) hpl with ⟨_, _, e⟩ | ⟨_, _, _, e⟩ | ⟨_, _, _, e⟩ | ⟨_, e⟩ | ⟨_, _, e⟩ <;> rw [e] <;>
        first | rfl | exact gone_fs _ _
    | leave pid p call at_ listens eq => rw [eq]
    | crash pid call eq => rw [eq]; exact gone_fs _ _
    | make dir name node call dirs new plain eq => rw [call] at hst; exact absurd hst id
    | remove path call empty eq => rw [call] at hst; exact absurd hst id
  refine ⟨key, ?_⟩
  unfold list isDir
  rw [key]

/-! ### A concrete case -/

/-- The directory of sessions of the user `me`. -/
def rootA : FsPath := [str!"tmp", str!"ced-me"]

/-- Files of the machine. -/
def filesA : Assoc FsPath Node := [([str!"tmp"], .dir), ([str!"home"], .dir), ([str!"home", str!"notes"], .file)]

/-- `127.0.0.1:8888`. -/
def addrA : Addr := ⟨127, 0, 0, 1, 8888⟩

example : (fromName asciiClasses tmpRoot str!"@:8888").map placeOf = .ok (some (.tcp addrA)) ∧ namesOf tmpRoot = rootA := by
  decide +kernel

theorem filesA_rooted : Rooted filesA := by
  intro p node hg
  have := Assoc.get_mem hg
  have key : ∀ e ∈ filesA, e.1 ≠ [] ∧ (e.1.dropLast = [] ∨ filesA.get e.1.dropLast = some .dir) ∧
      ∀ q, e.2 = .socket q → q = 0 := by
    intro e he
    simp only [filesA, List.mem_cons, List.not_mem_nil, or_false] at he
    rcases he with rfl | rfl | rfl <;> refine ⟨by simp, by decide, by simp⟩
  exact key (p, node) this

/-- A server by hand, a client that connects, a second server. -/
def talkA : List Step := [.server (.tcp addrA), .go 1, .client (.tcp addrA), .server (.tcp addrA), .go 2, .go 2]

example : (run rootA (booted filesA) talkA).reaches (.tcp addrA) = some 1 ∧
    (run rootA (booted filesA) talkA).clients.get 2 = some ⟨.tcp addrA, .connected 1⟩ ∧
    (run rootA (booted filesA) talkA).servers.get 3 = some ⟨.tcp addrA, .starting, false⟩ ∧
    (run rootA (booted filesA) (talkA ++ [.go 3])).servers.get 3 = none ∧
    (run rootA (booted filesA) (talkA ++ [.go 3])).reaches (.tcp addrA) = some 1 ∧
    (run rootA (booted filesA) (talkA ++ [.go 3, .crash 1, .server (.tcp addrA), .go 4])).reaches (.tcp addrA) = some 4 ∧
    (run rootA (booted filesA) talkA).list rootA = [] := by decide +kernel

example : (run rootA (run rootA (booted filesA) talkA) [.client (.tcp addrA), .go 4, .go 3, .go 4]).clients.get 4 =
    some ⟨.tcp addrA, .connected 1⟩ :=
  C97_connects (h := run rootA (booted filesA) talkA) ⟨filesA, talkA, filesA_rooted, rfl⟩ (by decide +kernel) (by simp)
    (by decide +kernel)

/-- Nobody has started a server: the client is refused. -/
example : (run rootA (booted filesA) [.client (.tcp addrA), .go 1, .go 1]).clients.get 1 = some ⟨.tcp addrA, .refused⟩ :=
  (C97_refused (h := booted filesA) ⟨filesA, [], filesA_rooted, rfl⟩ (a := addrA) (steps := [.go 1, .go 1])
    (fun q p hq => (by cases hq)) (by simp)).2 (by decide)

end Ced.Props
