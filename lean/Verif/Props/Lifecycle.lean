import Verif.Model.Lifecycle
import Verif.Proofs.Assoc

/-!
# C79, C80: the life of sessions on the machine
-/

namespace Ced.Props

open Machine

theorem assoc_nil {K V : Type} [DecidableEq K] {m : Assoc K V} : m = [] ↔ ∀ n, m.get n = none := by
  constructor
  · rintro rfl _; rfl
  · intro h
    cases m with
    | nil => rfl
    | cons x m =>
      have := h x.1
      simp [Assoc.get] at this

theorem set_ne_nil {K V : Type} [DecidableEq K] {m : Assoc K V} {k : K} {v : V} : m.set k v ≠ [] := by
  intro h
  have := assoc_nil.1 h k
  rw [Assoc.get_set] at this
  simp at this

/-- What a step does to the servers, the sockets and the directory. -/
theorem step_cases (m : Machine) (st : Step) :
    m.next ≤ (m.step st).next ∧
    ((m.step st).dir = m.dir ∧ (m.step st).files = m.files ∧ (m.step st).servers = m.servers ∨
     (∃ n, (m.step st).dir = m.dir ∧ (m.step st).files = m.files ∧
       (m.step st).servers = m.servers.set m.next ⟨n, .starting, false⟩ ∧ m.next < (m.step st).next ∧
       (st = .server n ∨ ∃ c cp, st = .go c ∧ m.clients.get c = some cp ∧ cp.name = n ∧ (m.dir && m.files.has n) = false)) ∨
     (∃ pid p, st = .go pid ∧ m.servers.get pid = some p ∧ m.step st = m.goServer pid p) ∨
     (∃ pid p, st = .lastLeave pid ∧ m.servers.get pid = some p ∧ p.phase = .listening ∧
       m.step st = { m with servers := m.servers.set pid { p with phase := .ending } }) ∨
     (∃ pid, st = .crash pid ∧ m.step st = { m with servers := m.servers.del pid })) := by
  cases st with
  | server n => exact ⟨Nat.le_succ _, .inr (.inl ⟨n, rfl, rfl, rfl, Nat.lt_succ_self _, .inl rfl⟩)⟩
  | client n => exact ⟨Nat.le_succ _, .inl ⟨rfl, rfl, rfl⟩⟩
  | crash pid => exact ⟨Nat.le_refl _, .inr (.inr (.inr (.inr ⟨pid, rfl, rfl⟩)))⟩
  | lastLeave pid =>
    cases h : m.servers.get pid with
    | none =>
      have e : m.step (.lastLeave pid) = m := by simp only [step, h]
      rw [e]; exact ⟨Nat.le_refl _, .inl ⟨rfl, rfl, rfl⟩⟩
    | some p =>
      by_cases hp : p.phase = .listening
      · simp only [step, h, if_pos hp]
        exact ⟨Nat.le_refl _, .inr (.inr (.inr (.inl ⟨pid, p, rfl, h, hp, rfl⟩)))⟩
      · have e : m.step (.lastLeave pid) = m := by simp only [step, h, if_neg hp]
        rw [e]; exact ⟨Nat.le_refl _, .inl ⟨rfl, rfl, rfl⟩⟩
  | go pid =>
    cases h : m.servers.get pid with
    | some p =>
      have hs : m.step (.go pid) = m.goServer pid p := by simp only [step, h]
      refine ⟨?_, .inr (.inr (.inl ⟨pid, p, rfl, h, hs⟩))⟩
      rw [hs]
      unfold goServer
      split <;> (try split) <;> exact Nat.le_refl _
    | none =>
      cases hc : m.clients.get pid with
      | none =>
        have e : m.step (.go pid) = m := by simp only [step, h, hc]
        rw [e]; exact ⟨Nat.le_refl _, .inl ⟨rfl, rfl, rfl⟩⟩
      | some c =>
        have hs : m.step (.go pid) = m.goClient pid c := by simp only [step, h, hc]
        rw [hs]
        unfold goClient
        split
        · split
          · exact ⟨Nat.le_refl _, .inl ⟨rfl, rfl, rfl⟩⟩
          · rename_i hne
            refine ⟨Nat.le_succ _, .inr (.inl ⟨c.name, rfl, rfl, rfl, Nat.lt_succ_self _, .inr ⟨pid, c, rfl, hc, rfl, ?_⟩⟩)⟩
            simpa using hne
        · split
          · split <;> exact ⟨Nat.le_refl _, .inl ⟨rfl, rfl, rfl⟩⟩
          · exact ⟨Nat.le_refl _, .inl ⟨rfl, rfl, rfl⟩⟩
        · split <;> exact ⟨Nat.le_refl _, .inl ⟨rfl, rfl, rfl⟩⟩
        · exact ⟨Nat.le_refl _, .inl ⟨rfl, rfl, rfl⟩⟩
        · exact ⟨Nat.le_refl _, .inl ⟨rfl, rfl, rfl⟩⟩

/-- What a system call of a server does. -/
theorem go_cases (m : Machine) (pid : Nat) (p : ServerProc) :
    (m.goServer pid p).next = m.next ∧ (m.goServer pid p).clients = m.clients ∧
    ((p.phase = .starting ∧ m.goServer pid p = { m with dir := true, servers := m.servers.set pid { p with phase := .ready } }) ∨
     (p.phase = .ready ∧ (m.dir = false ∨ m.files.has p.name = true) ∧
       m.goServer pid p = { m with servers := m.servers.set pid { p with phase := .ending } }) ∨
     (p.phase = .ready ∧ m.dir = true ∧ m.files.has p.name = false ∧
       m.goServer pid p = { m with files := m.files.set p.name pid
                                   servers := m.servers.set pid { p with phase := .listening, told := true } }) ∨
     (p.phase = .listening ∧ m.goServer pid p = m) ∨
     (p.phase = .ending ∧ m.files.has p.name = true ∧
       m.goServer pid p = { m with files := m.files.del p.name, servers := m.servers.set pid { p with phase := .unlinked } }) ∨
     (p.phase = .ending ∧ m.files.has p.name = false ∧ m.goServer pid p = { m with servers := m.servers.del pid }) ∨
     (p.phase = .unlinked ∧ m.list = [] ∧
       m.goServer pid p = { m with servers := m.servers.set pid { p with phase := .removing } }) ∨
     (p.phase = .unlinked ∧ m.list ≠ [] ∧ m.goServer pid p = { m with servers := m.servers.del pid }) ∨
     (p.phase = .removing ∧ m.goServer pid p = { m with dir := m.dir && !m.files.isEmpty, servers := m.servers.del pid })) := by
  unfold goServer
  cases hp : p.phase with
  | starting => simp
  | ready =>
    dsimp only
    by_cases h : m.dir = false ∨ m.files.has p.name = true
    · rw [if_pos h]; simp [h]
    · rw [if_neg h]
      simp only [not_or, Bool.not_eq_false, Bool.not_eq_true] at h
      simp [h]
  | listening => simp
  | ending =>
    dsimp only
    cases h : m.files.has p.name <;> simp
  | unlinked =>
    dsimp only
    by_cases h : m.list = []
    · rw [if_pos h]; simp [h]
    · rw [if_neg h]; simp [h]
  | removing => simp

/-- The servers have numbers below the next one; the directory is there as long as there is a socket; and a socket has the
name of its server, which has not removed it. -/
structure Sane (m : Machine) : Prop where
  servers : ∀ q p, m.servers.get q = some p → q < m.next
  dir : m.files ≠ [] → m.dir = true
  owner : ∀ n q, m.files.get n = some q → q < m.next ∧
    ∀ p, m.servers.get q = some p → p.name = n ∧ (p.phase = .listening ∨ p.phase = .ending)

theorem set_below {m : Assoc Nat ServerProc} {k n : Nat} {v : ServerProc} (h : ∀ q p, m.get q = some p → q < n) (hk : k < n) :
    ∀ q p, (m.set k v).get q = some p → q < n := by
  intro q p hq
  rw [Assoc.get_set] at hq
  split at hq
  · rename_i e; subst e; exact hk
  · exact h q p hq

theorem del_below {m : Assoc Nat ServerProc} {k n : Nat} (h : ∀ q p, m.get q = some p → q < n) :
    ∀ q p, (m.del k).get q = some p → q < n := by
  intro q p hq
  rw [Assoc.get_del] at hq
  split at hq
  · cases hq
  · exact h q p hq

theorem owner_set {m : Machine} (h : Sane m) {pid : Nat} {p v : ServerProc} (hp : m.servers.get pid = some p) (hv : v.name = p.name)
    (hph : (p.phase = .listening ∨ p.phase = .ending) → (v.phase = .listening ∨ v.phase = .ending)) :
    ∀ n q, m.files.get n = some q → q < m.next ∧
      ∀ p', (m.servers.set pid v).get q = some p' → p'.name = n ∧ (p'.phase = .listening ∨ p'.phase = .ending) := by
  intro n q hq
  obtain ⟨h1, h2⟩ := h.owner n q hq
  refine ⟨h1, fun p' hp' => ?_⟩
  rw [Assoc.get_set] at hp'
  split at hp'
  · rename_i e
    subst e
    cases hp'
    obtain ⟨h3, h4⟩ := h2 p hp
    exact ⟨hv.trans h3, hph h4⟩
  · exact h2 p' hp'

theorem owner_del {m : Machine} (h : Sane m) {pid : Nat} :
    ∀ n q, m.files.get n = some q → q < m.next ∧
      ∀ p', (m.servers.del pid).get q = some p' → p'.name = n ∧ (p'.phase = .listening ∨ p'.phase = .ending) := by
  intro n q hq
  obtain ⟨h1, h2⟩ := h.owner n q hq
  refine ⟨h1, fun p' hp' => ?_⟩
  rw [Assoc.get_del] at hp'
  split at hp'
  · cases hp'
  · exact h2 p' hp'

theorem sane_step {m : Machine} (h : Sane m) (st : Step) : Sane (m.step st) := by
  obtain ⟨hn, hc⟩ := step_cases m st
  rcases hc with ⟨h1, h2, h3⟩ | ⟨n, h1, h2, h3, h4, _⟩ | ⟨pid, p, _, hp, hs⟩ | ⟨pid, p, _, hp, hph, hs⟩ | ⟨pid, _, hs⟩
  · refine ⟨fun q p hq => ?_, fun hf => ?_, ?_⟩
    · rw [h3] at hq; exact Nat.lt_of_lt_of_le (h.servers q p hq) hn
    · rw [h1]; rw [h2] at hf; exact h.dir hf
    · rw [h2, h3]; exact fun n q hq => ⟨Nat.lt_of_lt_of_le (h.owner n q hq).1 hn, (h.owner n q hq).2⟩
  · refine ⟨?_, fun hf => ?_, ?_⟩
    · rw [h3]
      exact set_below (fun q p hq => Nat.lt_of_lt_of_le (h.servers q p hq) hn) h4
    · rw [h1]; rw [h2] at hf; exact h.dir hf
    · rw [h2, h3]
      intro n q hq
      obtain ⟨h5, h6⟩ := h.owner n q hq
      refine ⟨Nat.lt_of_lt_of_le h5 hn, fun p' hp' => ?_⟩
      rw [Assoc.get_set_ne _ (Nat.ne_of_lt h5)] at hp'
      exact h6 p' hp'
  · have hlt := h.servers pid p hp
    rw [hs]
    obtain ⟨hn, _, hg⟩ := go_cases m pid p
    rcases hg with ⟨hph, e⟩ | ⟨hph, _, e⟩ | ⟨hph, hd, hno, e⟩ | ⟨_, e⟩ | ⟨hph, _, e⟩ | ⟨_, _, e⟩ | ⟨hph, _, e⟩ | ⟨_, _, e⟩ | ⟨_, e⟩ <;> rw [e]
    · exact ⟨set_below h.servers hlt, fun _ => rfl, owner_set h hp rfl (by rw [hph]; rintro (hh | hh) <;> cases hh)⟩
    · exact ⟨set_below h.servers hlt, h.dir, owner_set h hp rfl (fun _ => .inr rfl)⟩
    · refine ⟨set_below h.servers hlt, fun _ => hd, ?_⟩
      intro n q hq
      have hq : (m.files.set p.name pid).get n = some q := hq
      rw [Assoc.get_set] at hq
      split at hq
      · rename_i e
        cases hq
        refine ⟨hlt, fun p' hp' => ?_⟩
        have hp' : (m.servers.set pid _).get pid = some p' := hp'
        rw [Assoc.get_set, if_pos rfl] at hp'
        cases hp'
        exact ⟨e.symm, .inl rfl⟩
      · exact owner_set (v := { p with phase := .listening, told := true }) h hp rfl (fun _ => .inl rfl) n q hq
    · exact h
    · refine ⟨set_below h.servers hlt, fun hf => h.dir ?_, ?_⟩
      · intro e'
        rw [show m.files = [] from e'] at hf
        exact hf rfl
      · intro n q hq
        have hq : (m.files.del p.name).get n = some q := hq
        rw [Assoc.get_del] at hq
        split at hq
        · cases hq
        · rename_i hne
          obtain ⟨h1, h2⟩ := h.owner n q hq
          refine ⟨h1, fun p' hp' => ?_⟩
          have hp' : (m.servers.set pid _).get q = some p' := hp'
          rw [Assoc.get_set] at hp'
          split at hp'
          · rename_i e2
            subst e2
            exact absurd (h2 p hp).1.symm hne
          · exact h2 p' hp'
    · exact ⟨del_below h.servers, h.dir, owner_del h⟩
    · exact ⟨set_below h.servers hlt, h.dir, owner_set h hp rfl (by rw [hph]; rintro (hh | hh) <;> cases hh)⟩
    · exact ⟨del_below h.servers, h.dir, owner_del h⟩
    · refine ⟨del_below h.servers, fun hf => ?_, owner_del h⟩
      show (m.dir && !m.files.isEmpty) = true
      rw [h.dir hf]
      cases hm : m.files with
      | nil => exact absurd hm hf
      | cons _ _ => rfl
  · rw [hs]; exact ⟨set_below h.servers (h.servers pid p hp), h.dir, owner_set h hp rfl (fun _ => .inr rfl)⟩
  · rw [hs]; exact ⟨del_below h.servers, h.dir, owner_del h⟩

/-- the states of a machine on which ced is used -/
def Reached (m : Machine) : Prop := ∃ steps, m = fresh.run steps

theorem machine_run_append (m : Machine) (a b : List Step) : m.run (a ++ b) = (m.run a).run b := by
  simp [run]

theorem machine_run_invariant {P : Machine → Prop} {ok : Step → Prop} (hstep : ∀ m st, P m → ok st → P (m.step st)) {steps : List Step} :
    ∀ {m : Machine}, P m → (∀ st ∈ steps, ok st) → P (m.run steps) := by
  induction steps with
  | nil => exact fun h _ => h
  | cons st steps ih =>
    intro m h hok
    exact ih (hstep m st h (hok st List.mem_cons_self)) fun s hs => hok s (List.mem_cons_of_mem _ hs)

theorem reached_sane {m : Machine} (h : Reached m) : Sane m := by
  obtain ⟨steps, rfl⟩ := h
  refine machine_run_invariant (P := Sane) (ok := fun _ => True) (fun m st hm _ => sane_step hm st) ⟨?_, ?_, ?_⟩ fun _ _ => trivial
  · intro q p hq; cases hq
  · intro hf; exact absurd rfl hf
  · intro n q hq; cases hq

theorem clients_step {m : Machine} (h : ∀ c cp, m.clients.get c = some cp → c < m.next) (st : Step) :
    ∀ c cp, (m.step st).clients.get c = some cp → c < (m.step st).next := by
  have hn := (step_cases m st).1
  intro c cp hg
  cases st with
  | server k => exact Nat.lt_of_lt_of_le (h c cp hg) hn
  | crash q => exact Nat.lt_of_lt_of_le (h c cp hg) hn
  | lastLeave q =>
    refine Nat.lt_of_lt_of_le (h c cp ?_) hn
    rw [← hg]
    simp only [step]
    split
    · split <;> rfl
    · rfl
  | client k =>
    have hg : (m.clients.set m.next _).get c = some cp := hg
    rw [Assoc.get_set] at hg
    split at hg
    · rename_i e; subst e; exact Nat.lt_succ_self _
    · exact Nat.lt_of_lt_of_le (h c cp hg) hn
  | go q =>
    refine Nat.lt_of_lt_of_le ?_ hn
    simp only [step] at hg
    split at hg
    · rw [(go_cases m q _).2.1] at hg; exact h c cp hg
    · split at hg
      · rename_i x hq
        have hlt := h q x hq
        by_cases e : c = q
        · subst e; exact hlt
        · have hsame : (m.goClient q x).clients.get c = m.clients.get c := by
            unfold goClient
            repeat' split
            all_goals first | rfl | exact Assoc.get_set_ne _ e
          rw [hsame] at hg
          exact h c cp hg
      · exact h c cp hg

theorem reached_clients {m : Machine} (h : Reached m) : ∀ c cp, m.clients.get c = some cp → c < m.next := by
  obtain ⟨steps, rfl⟩ := h
  refine machine_run_invariant (P := fun m => ∀ c cp, m.clients.get c = some cp → c < m.next) (ok := fun _ => True)
    (fun m st hm _ => clients_step hm st) ?_ fun _ _ => trivial
  intro c cp hg; cases hg

theorem listener_iff {m : Machine} {n : Str} {pid : Nat} :
    m.listener n = some pid ↔ m.files.get n = some pid ∧ ∃ p, m.servers.get pid = some p ∧ p.phase = .listening := by
  unfold listener
  cases hf : m.files.get n with
  | none => simp
  | some q =>
    cases hs : m.servers.get q with
    | none =>
      simp only [hs, Option.some.injEq]
      constructor
      · intro h; cases h
      · rintro ⟨rfl, p, h, _⟩; rw [hs] at h; cases h
    | some p =>
      simp only [hs, Option.some.injEq]
      by_cases hp : p.phase = .listening
      · rw [if_pos hp]
        constructor
        · intro h; cases h; exact ⟨rfl, p, hs, hp⟩
        · rintro ⟨rfl, _⟩; rfl
      · rw [if_neg hp]
        constructor
        · intro h; cases h
        · rintro ⟨rfl, p', h, hp'⟩; rw [hs] at h; cases h; exact absurd hp' hp

/-- C79: a session on which a server listens is listed. -/
theorem C79_listed {m : Machine} (hr : Reached m) {n : Str} {pid : Nat} (h : m.listener n = some pid) : n ∈ m.list := by
  have hf := (listener_iff.1 h).1
  have hne : m.files ≠ [] := by
    intro e
    rw [assoc_nil.1 e n] at hf
    cases hf
  unfold list
  rw [(reached_sane hr).dir hne, if_pos rfl, Assoc.mem_keys, Assoc.has_iff]
  exact ⟨_, hf⟩

/-- A server listens on the session, it is the only one of this name. -/
structure Held (n : Str) (pid : Nat) (m : Machine) : Prop where
  sane : Sane m
  file : m.files.get n = some pid
  proc : ∃ p, m.servers.get pid = some p ∧ p.name = n ∧ p.phase = .listening
  only : ∀ q p, m.servers.get q = some p → p.name = n → q = pid

theorem held_dir {n : Str} {pid : Nat} {m : Machine} (h : Held n pid m) : m.dir = true :=
  h.sane.dir fun e => by
    have := h.file
    rw [assoc_nil.1 e n] at this
    cases this

/-- The step of another process. -/
def Elsewhere (n : Str) (pid : Nat) (st : Step) : Prop := st ≠ .server n ∧ st ≠ .lastLeave pid ∧ st ≠ .crash pid

theorem held_step {n : Str} {pid : Nat} {m : Machine} (h : Held n pid m) {st : Step} (hst : Elsewhere n pid st) :
    Held n pid (m.step st) := by
  have hsane := sane_step h.sane st
  obtain ⟨p0, hp0, hn0, hl0⟩ := h.proc
  obtain ⟨hn, hc⟩ := step_cases m st
  rcases hc with ⟨h1, h2, h3⟩ | ⟨k, h1, h2, h3, h4, h5⟩ | ⟨q, p, rfl, hp, hs⟩ | ⟨q, p, rfl, hp, _, hs⟩ | ⟨q, rfl, hs⟩
  · refine ⟨hsane, by rw [h2]; exact h.file, by rw [h3]; exact h.proc, by rw [h3]; exact h.only⟩
  · have hk : k ≠ n := by
      rcases h5 with rfl | ⟨c, cp, _, _, hcp, hdf⟩
      · rintro rfl; exact hst.1 rfl
      · rintro rfl
        rw [held_dir h, show m.files.has k = true from Assoc.has_iff.2 ⟨_, h.file⟩] at hdf
        cases hdf
    have hne : pid ≠ m.next := Nat.ne_of_lt (h.sane.servers _ _ hp0)
    refine ⟨hsane, by rw [h2]; exact h.file, ⟨p0, by rw [h3, Assoc.get_set_ne _ hne]; exact hp0, hn0, hl0⟩, ?_⟩
    intro q p hq hpn
    rw [h3, Assoc.get_set] at hq
    split at hq
    · cases hq; exact absurd hpn hk
    · exact h.only q p hq hpn
  · by_cases e : q = pid
    · subst e
      obtain rfl : p = p0 := Option.some.inj (hp.symm.trans hp0)
      rw [hs]
      rcases (go_cases m q p).2.2 with ⟨hph, e⟩ | ⟨hph, _, e⟩ | ⟨hph, hd, _, e⟩ | ⟨hph, e⟩ | ⟨hph, _, e⟩ | ⟨hph, _, e⟩ | ⟨hph, _, e⟩ |
        ⟨hph, _, e⟩ | ⟨hph, e⟩ <;> first | (rw [hl0] at hph; cases hph; done) | skip
      rw [e]; exact h
    · have hnn : p.name ≠ n := fun hh => e (h.only q p hp hh)
      have hset : ∀ v : ServerProc, v.name = p.name → (∃ p', (m.servers.set q v).get pid = some p' ∧ p'.name = n ∧ p'.phase = .listening) ∧
          ∀ q' p', (m.servers.set q v).get q' = some p' → p'.name = n → q' = pid := by
        intro v hv
        refine ⟨⟨p0, by rw [Assoc.get_set_ne _ (fun hh => e hh.symm)]; exact hp0, hn0, hl0⟩, fun q' p' hq' hp' => ?_⟩
        rw [Assoc.get_set] at hq'
        split at hq'
        · cases hq'; exact absurd (hv ▸ hp') hnn
        · exact h.only q' p' hq' hp'
      have hdel : (∃ p', (m.servers.del q).get pid = some p' ∧ p'.name = n ∧ p'.phase = .listening) ∧
          ∀ q' p', (m.servers.del q).get q' = some p' → p'.name = n → q' = pid := by
        refine ⟨⟨p0, by rw [Assoc.get_del_ne (fun hh => e hh.symm)]; exact hp0, hn0, hl0⟩, fun q' p' hq' hp' => ?_⟩
        rw [Assoc.get_del] at hq'
        split at hq'
        · cases hq'
        · exact h.only q' p' hq' hp'
      rw [hs] at hsane ⊢
      rcases (go_cases m q p).2.2 with ⟨hph, e⟩ | ⟨hph, _, e⟩ | ⟨hph, hd, _, e⟩ | ⟨hph, e⟩ | ⟨hph, _, e⟩ | ⟨hph, _, e⟩ | ⟨hph, _, e⟩ |
        ⟨hph, _, e⟩ | ⟨hph, e⟩ <;> rw [e] at hsane ⊢
      · exact ⟨hsane, h.file, (hset _ (by rfl)).1, (hset _ (by rfl)).2⟩
      · exact ⟨hsane, h.file, (hset _ (by rfl)).1, (hset _ (by rfl)).2⟩
      · exact ⟨hsane, by show (m.files.set p.name q).get n = _; rw [Assoc.get_set_ne _ (fun hh => hnn hh.symm)]; exact h.file,
          (hset _ (by rfl)).1, (hset _ (by rfl)).2⟩
      · exact h
      · exact ⟨hsane, by show (m.files.del p.name).get n = _; rw [Assoc.get_del_ne (fun hh => hnn hh.symm)]; exact h.file,
          (hset _ (by rfl)).1, (hset _ (by rfl)).2⟩
      · exact ⟨hsane, h.file, hdel.1, hdel.2⟩
      · exact ⟨hsane, h.file, (hset _ (by rfl)).1, (hset _ (by rfl)).2⟩
      · exact ⟨hsane, h.file, hdel.1, hdel.2⟩
      · exact ⟨hsane, h.file, hdel.1, hdel.2⟩
  · have e : q ≠ pid := by rintro rfl; exact hst.2.1 rfl
    have hnn : p.name ≠ n := fun hh => e (h.only q p hp hh)
    rw [hs] at hsane ⊢
    refine ⟨hsane, h.file, ⟨p0, ?_, hn0, hl0⟩, fun q' p' hq' hp' => ?_⟩
    · show (m.servers.set q _).get pid = _
      rw [Assoc.get_set_ne _ (fun hh => e hh.symm)]; exact hp0
    · have hq' : (m.servers.set q _).get q' = some p' := hq'
      rw [Assoc.get_set] at hq'
      split at hq'
      · cases hq'; exact absurd hp' hnn
      · exact h.only q' p' hq' hp'
  · have e : q ≠ pid := by rintro rfl; exact hst.2.2 rfl
    rw [hs] at hsane ⊢
    refine ⟨hsane, h.file, ⟨p0, ?_, hn0, hl0⟩, fun q' p' hq' hp' => ?_⟩
    · show (m.servers.del q).get pid = _
      rw [Assoc.get_del_ne (fun hh => e hh.symm)]; exact hp0
    · have hq' : (m.servers.del q).get q' = some p' := hq'
      rw [Assoc.get_del] at hq'
      split at hq'
      · cases hq'
      · exact h.only q' p' hq' hp'

/-- what a client is told that connects now -/
def connectsTo (m : Machine) (n : Str) : ClientPhase :=
  match m.listener n with
  | some server => .connected server
  | none => .refused

/-- the clients of the session that came after this moment, while its socket stays there -/
def Joining (n : Str) (final : ClientPhase) (since : Nat) (m : Machine) : Prop :=
  ∀ c cp, since ≤ c → m.clients.get c = some cp → cp.name = n →
    cp.phase = .checking ∨ cp.phase = .connecting ∨ cp.phase = final

theorem held_connects {n : Str} {pid : Nat} {m : Machine} (h : Held n pid m) : connectsTo m n = .connected pid := by
  unfold connectsTo
  rw [listener_iff.2 ⟨h.file, let ⟨p, h1, _, h3⟩ := h.proc; ⟨p, h1, h3⟩⟩]

theorem clients_goServer (m : Machine) (pid : Nat) (p : ServerProc) : (m.goServer pid p).clients = m.clients :=
  (go_cases m pid p).2.1

theorem joining_step {n : Str} {final : ClientPhase} {since : Nat} {m : Machine} (hdir : m.dir = true)
    (hfile : m.files.has n = true) (hout : connectsTo m n = final) (hfin : ∃ s, final = .connected s ∨ final = .refused)
    (hj : Joining n final since m) (st : Step) : Joining n final since (m.step st) := by
  intro c cp hc hg hn
  cases st with
  | server k => exact hj c cp hc hg hn
  | crash q => exact hj c cp hc hg hn
  | lastLeave q =>
    cases hs : m.servers.get q with
    | none => simp only [step, hs] at hg; exact hj c cp hc hg hn
    | some p =>
      by_cases hp : p.phase = .listening
      · simp only [step, hs, if_pos hp] at hg; exact hj c cp hc hg hn
      · simp only [step, hs, if_neg hp] at hg; exact hj c cp hc hg hn
  | client k =>
    have hg : (m.clients.set m.next _).get c = some cp := hg
    rw [Assoc.get_set] at hg
    split at hg
    · cases hg; exact .inl rfl
    · exact hj c cp hc hg hn
  | go q =>
    cases hs : m.servers.get q with
    | some p =>
      simp only [step, hs, clients_goServer] at hg
      exact hj c cp hc hg hn
    | none =>
      cases hq : m.clients.get q with
      | none => simp only [step, hs, hq] at hg; exact hj c cp hc hg hn
      | some x =>
        simp only [step, hs, hq] at hg
        by_cases e : c = q
        · subst e
          by_cases hxn : x.name = n
          · have hx := hj c x hc hq hxn
            unfold goClient at hg
            rcases hx with hx | hx | hx <;> rw [hx] at hg <;> dsimp only at hg
            · rw [hdir, hxn, hfile] at hg
              have hg : (m.clients.set c _).get c = some cp := hg
              rw [Assoc.get_set] at hg
              simp only [if_true] at hg
              cases hg
              exact .inr (.inl rfl)
            · rw [hxn] at hg
              unfold connectsTo at hout
              cases hl : m.listener n with
              | some sv =>
                rw [hl] at hg hout
                have hg : (m.clients.set c _).get c = some cp := hg
                rw [Assoc.get_set, if_pos rfl] at hg
                cases hg
                exact .inr (.inr hout)
              | none =>
                rw [hl] at hg hout
                have hg : (m.clients.set c _).get c = some cp := hg
                rw [Assoc.get_set, if_pos rfl] at hg
                cases hg
                exact .inr (.inr hout)
            · obtain ⟨sv, hv | hv⟩ := hfin <;> rw [hv] at hg <;> dsimp only at hg <;> rw [hq] at hg <;> cases hg <;>
                exact .inr (.inr hx)
          · exfalso
            apply hxn
            unfold goClient at hg
            split at hg
            · split at hg
              · have hg : (m.clients.set c _).get c = some cp := hg
                rw [Assoc.get_set, if_pos rfl] at hg
                cases hg; exact hn
              · have hg : (m.clients.set c _).get c = some cp := hg
                rw [Assoc.get_set, if_pos rfl] at hg
                cases hg; exact hn
            · split at hg
              · split at hg
                · have hg : (m.clients.set c _).get c = some cp := hg
                  rw [Assoc.get_set, if_pos rfl] at hg
                  cases hg; exact hn
                · rw [hq] at hg; cases hg; exact hn
              · have hg : (m.clients.set c _).get c = some cp := hg
                rw [Assoc.get_set, if_pos rfl] at hg
                cases hg; exact hn
            · split at hg
              · have hg : (m.clients.set c _).get c = some cp := hg
                rw [Assoc.get_set, if_pos rfl] at hg
                cases hg; exact hn
              · have hg : (m.clients.set c _).get c = some cp := hg
                rw [Assoc.get_set, if_pos rfl] at hg
                cases hg; exact hn
            · rw [hq] at hg; cases hg; exact hn
            · rw [hq] at hg; cases hg; exact hn
        · have hsame : (m.goClient q x).clients.get c = m.clients.get c := by
            unfold goClient
            repeat' split
            all_goals first | rfl | exact Assoc.get_set_ne _ e
          rw [hsame] at hg
          exact hj c cp hc hg hn

/-- C79: as long as its server runs and nobody starts another server of this name by hand, a session stays reachable and
listed whatever happens to the other sessions, and each client that comes for it ends up connected to that server. -/
theorem C79_reachable {m : Machine} (hr : Reached m) {n : Str} {pid : Nat} (hl : m.listener n = some pid)
    (only : ∀ q p, m.servers.get q = some p → p.name = n → q = pid)
    {steps : List Step} (hst : ∀ st ∈ steps, st ≠ .server n ∧ st ≠ .lastLeave pid ∧ st ≠ .crash pid) :
    (m.run steps).listener n = some pid ∧ n ∈ (m.run steps).list ∧
      ∀ c cp, m.next ≤ c → (m.run steps).clients.get c = some cp → cp.name = n →
        cp.phase = .checking ∨ cp.phase = .connecting ∨ cp.phase = .connected pid := by
  obtain ⟨hf, p, hp, hph⟩ := listener_iff.1 hl
  have hs := reached_sane hr
  have h0 : Held n pid m := ⟨hs, hf, ⟨p, hp, ((hs.owner n pid hf).2 p hp).1, hph⟩, only⟩
  obtain ⟨steps0, rfl⟩ := hr
  have key : ∀ (steps : List Step) (m1 : Machine), (∀ st ∈ steps, Elsewhere n pid st) → Held n pid m1 →
      Joining n (.connected pid) (fresh.run steps0).next m1 →
        Held n pid (m1.run steps) ∧ Joining n (.connected pid) (fresh.run steps0).next (m1.run steps) := by
    intro steps
    induction steps with
    | nil => exact fun m1 _ h1 h2 => ⟨h1, h2⟩
    | cons st steps ih =>
      intro m1 h h1 h2
      exact ih _ (fun s hs => h s (List.mem_cons_of_mem _ hs)) (held_step h1 (h st List.mem_cons_self))
        (joining_step (held_dir h1) (Assoc.has_iff.2 ⟨_, h1.file⟩) (held_connects h1) ⟨pid, .inl rfl⟩ h2 st)
  obtain ⟨h1, h2⟩ := key steps _ hst h0 (by
    intro c cp hc hg _
    exact absurd (reached_clients ⟨steps0, rfl⟩ c cp hg) (Nat.not_lt.2 hc))
  have hl1 : ((fresh.run steps0).run steps).listener n = some pid :=
    listener_iff.2 ⟨h1.file, let ⟨p, a, _, b⟩ := h1.proc; ⟨p, a, b⟩⟩
  exact ⟨hl1, C79_listed ⟨steps0 ++ steps, (machine_run_append _ _ _).symm⟩ hl1, h2⟩

/-- The phase of a client after so many of its own system calls, while the socket of its session stays there. -/
def phaseAfter (final : ClientPhase) : Nat → ClientPhase
  | 0 => .checking
  | 1 => .connecting
  | _ + 2 => final

/-- The client has done so many system calls. -/
structure Along (n : Str) (final : ClientPhase) (c k : Nat) (m : Machine) : Prop where
  client : m.clients.get c = some ⟨n, phaseAfter final k⟩
  server : m.servers.get c = none
  below : c < m.next

theorem along_step {n : Str} {final : ClientPhase} {c k : Nat} {m : Machine} (hdir : m.dir = true)
    (hfile : m.files.has n = true) (hout : connectsTo m n = final) (hfin : ∃ s, final = .connected s ∨ final = .refused)
    (ha : Along n final c k m) (st : Step) : Along n final c (k + if st = .go c then 1 else 0) (m.step st) := by
  have hlt : c < (m.step st).next := Nat.lt_of_lt_of_le ha.below (step_cases m st).1
  have hset : ∀ (q : Nat) (v : ServerProc), q ≠ c → (m.servers.set q v).get c = none := fun q v h => by
    rw [Assoc.get_set_ne _ fun e => h e.symm]; exact ha.server
  have hdel : ∀ q : Nat, (m.servers.del q).get c = none := fun q => by
    rw [Assoc.get_del]; split
    · rfl
    · exact ha.server
  cases st with
  | server k' => exact ⟨ha.client, hset _ _ (Nat.ne_of_gt ha.below), hlt⟩
  | crash q => exact ⟨ha.client, hdel q, hlt⟩
  | lastLeave q =>
    cases hs : m.servers.get q with
    | none =>
      have e : m.step (.lastLeave q) = m := by simp only [step, hs]
      rw [e, if_neg (by intro h; cases h)]; exact ha
    | some p =>
      have hq : q ≠ c := by rintro rfl; rw [ha.server] at hs; cases hs
      by_cases hp : p.phase = .listening
      · have e : m.step (.lastLeave q) = { m with servers := m.servers.set q { p with phase := .ending } } := by
          simp only [step, hs, if_pos hp]
        rw [e, if_neg (by intro h; cases h)]; exact ⟨ha.client, hset _ _ hq, ha.below⟩
      · have e : m.step (.lastLeave q) = m := by simp only [step, hs, if_neg hp]
        rw [e, if_neg (by intro h; cases h)]; exact ha
  | client k' =>
    refine ⟨?_, ha.server, hlt⟩
    show (m.clients.set m.next _).get c = _
    rw [Assoc.get_set_ne _ (Nat.ne_of_lt ha.below), if_neg (by intro h; cases h)]
    exact ha.client
  | go q =>
    by_cases hqc : q = c
    · subst hqc
      rw [if_pos rfl]
      have e : m.step (.go q) = m.goClient q ⟨n, phaseAfter final k⟩ := by simp only [step, ha.server, ha.client]
      rw [e]
      match k, ha with
      | 0, ha =>
        have e : m.goClient q ⟨n, .checking⟩ = { m with clients := m.clients.set q ⟨n, .connecting⟩ } := by
          simp only [goClient, hdir, hfile, Bool.and_self, if_true]
        rw [show phaseAfter final 0 = .checking from rfl, e]
        exact ⟨Assoc.get_set_self .., ha.server, ha.below⟩
      | 1, ha =>
        have e : m.goClient q ⟨n, .connecting⟩ = { m with clients := m.clients.set q ⟨n, final⟩ } := by
          rw [← hout]
          unfold goClient connectsTo
          cases m.listener n <;> rfl
        rw [show phaseAfter final 1 = .connecting from rfl, e]
        exact ⟨Assoc.get_set_self .., ha.server, ha.below⟩
      | k + 2, ha =>
        have e : m.goClient q ⟨n, final⟩ = m := by
          obtain ⟨s, hv | hv⟩ := hfin <;> rw [hv] <;> rfl
        rw [show phaseAfter final (k + 2) = final from rfl, e]
        exact ⟨ha.client, ha.server, ha.below⟩
    · rw [if_neg (by intro h; cases h; exact hqc rfl), Nat.add_zero]
      cases hs : m.servers.get q with
      | some p =>
        have e : m.step (.go q) = m.goServer q p := by simp only [step, hs]
        refine ⟨by rw [e, clients_goServer]; exact ha.client, ?_, hlt⟩
        rw [e]
        rcases (go_cases m q p).2.2 with ⟨_, e⟩ | ⟨_, _, e⟩ | ⟨_, _, _, e⟩ | ⟨_, e⟩ | ⟨_, _, e⟩ | ⟨_, _, e⟩ | ⟨_, _, e⟩ |
          ⟨_, _, e⟩ | ⟨_, e⟩ <;> rw [e] <;> first | exact hset _ _ hqc | exact hdel _ | exact ha.server
      | none =>
        cases hq : m.clients.get q with
        | none =>
          have e : m.step (.go q) = m := by simp only [step, hs, hq]
          rw [e]; exact ha
        | some x =>
          have e : m.step (.go q) = m.goClient q x := by simp only [step, hs, hq]
          refine ⟨?_, ?_, hlt⟩
          · rw [e]
            have hsame : (m.goClient q x).clients.get c = m.clients.get c := by
              unfold goClient
              repeat' split
              all_goals first | rfl | exact Assoc.get_set_ne _ fun e => hqc e.symm
            rw [hsame]; exact ha.client
          · rw [e]
            unfold goClient
            repeat' split
            all_goals first | exact ha.server | exact hset _ _ (Nat.ne_of_gt ha.below)

/-- How many system calls of a process there are in a schedule. -/
def callsOf (c : Nat) (steps : List Step) : Nat := (steps.filter (· = .go c)).length

theorem along_run {n : Str} {final : ClientPhase} {c : Nat} {ok : Step → Prop} {I : Machine → Prop}
    (hI : ∀ m st, I m → ok st → I (m.step st)) (hd : ∀ m, I m → m.dir = true ∧ m.files.has n = true ∧ connectsTo m n = final)
    (hfin : ∃ s, final = .connected s ∨ final = .refused) :
    ∀ (steps : List Step) (m : Machine) (k : Nat), I m → Along n final c k m → (∀ st ∈ steps, ok st) →
      Along n final c (k + callsOf c steps) (m.run steps) := by
  intro steps
  induction steps with
  | nil => exact fun m k _ ha _ => ha
  | cons st steps ih =>
    intro m k hi ha hok
    have h1 := along_step (hd m hi).1 (hd m hi).2.1 (hd m hi).2.2 hfin ha st
    have h2 := ih _ _ (hI m st hi (hok st List.mem_cons_self)) h1 fun s hs => hok s (List.mem_cons_of_mem _ hs)
    have e : k + callsOf c (st :: steps) = k + (if st = .go c then 1 else 0) + callsOf c steps := by
      unfold callsOf
      rw [List.filter_cons]
      by_cases hst : st = .go c
      · rw [if_pos hst, if_pos (decide_eq_true hst), List.length_cons]; omega
      · rw [if_neg hst, if_neg (by simpa using hst)]; omega
    rw [e]
    exact h2

theorem phaseAfter_two {final : ClientPhase} {k : Nat} (h : 2 ≤ k) : phaseAfter final k = final := by
  obtain ⟨k, rfl⟩ : ∃ j, k = j + 2 := ⟨k - 2, by omega⟩
  rfl

/-- A client that has just come. -/
theorem along_new {m : Machine} (hr : Reached m) (n : Str) (final : ClientPhase) :
    Along n final m.next 0 (m.step (.client n)) := by
  refine ⟨Assoc.get_set_self .., ?_, Nat.lt_succ_self _⟩
  cases hs : m.servers.get m.next with
  | none => exact hs
  | some p => exact absurd ((reached_sane hr).servers _ _ hs) (Nat.lt_irrefl _)

theorem reached_run {m : Machine} (h : Reached m) (steps : List Step) : Reached (m.run steps) := by
  obtain ⟨s, rfl⟩ := h
  exact ⟨s ++ steps, (machine_run_append _ _ _).symm⟩

/-- C79: such a client is connected to that server after two system calls of its own, whatever else happens meanwhile. -/
theorem C79_connects {m : Machine} (hr : Reached m) {n : Str} {pid : Nat} (hl : m.listener n = some pid)
    (only : ∀ q p, m.servers.get q = some p → p.name = n → q = pid)
    {steps : List Step} (hst : ∀ st ∈ steps, st ≠ .server n ∧ st ≠ .lastLeave pid ∧ st ≠ .crash pid)
    (hcalls : 2 ≤ callsOf m.next steps) :
    (m.run (.client n :: steps)).clients.get m.next = some ⟨n, .connected pid⟩ := by
  obtain ⟨hf, p, hp, hph⟩ := listener_iff.1 hl
  have hs := reached_sane hr
  have h0 : Held n pid m := ⟨hs, hf, ⟨p, hp, ((hs.owner n pid hf).2 p hp).1, hph⟩, only⟩
  have h1 : Held n pid (m.step (.client n)) := held_step h0 ⟨by simp, by simp, by simp⟩
  have h2 := along_run (ok := Elsewhere n pid) (I := Held n pid) (fun m st h hok => held_step h hok)
    (fun m h => ⟨held_dir h, Assoc.has_iff.2 ⟨_, h.file⟩, held_connects h⟩) ⟨pid, .inl rfl⟩ steps _ 0 h1
    (along_new hr n (.connected pid)) hst
  have h3 := h2.client
  rw [phaseAfter_two (by omega)] at h3
  exact h3

/-! ### When no server crashes -/

/-- Without crashes: every socket has a server that runs, and an empty directory has a server that is about to put a socket
there or to remove it. -/
structure Tidied (m : Machine) : Prop where
  sane : Sane m
  owned : ∀ n q, m.files.get n = some q → ∃ p, m.servers.get q = some p
  swept : m.dir = true → m.files = [] →
    ∃ q p, m.servers.get q = some p ∧ (p.phase = .ready ∨ p.phase = .unlinked ∨ p.phase = .removing)

theorem get_set_some {m : Assoc Nat ServerProc} {k q : Nat} {v p : ServerProc} (h : m.get q = some p) :
    ∃ p', (m.set k v).get q = some p' := by
  rw [Assoc.get_set]
  split
  · exact ⟨_, rfl⟩
  · exact ⟨_, h⟩

theorem tidied_step {m : Machine} (h : Tidied m) {st : Step} (hst : ∀ q, st ≠ .crash q) : Tidied (m.step st) := by
  have hsane := sane_step h.sane st
  obtain ⟨hn, hc⟩ := step_cases m st
  rcases hc with ⟨h1, h2, h3⟩ | ⟨n, h1, h2, h3, h4, _⟩ | ⟨pid, p, _, hp, hs⟩ | ⟨pid, p, _, hp, hph, hs⟩ | ⟨pid, rfl, hs⟩
  · exact ⟨hsane, by rw [h2, h3]; exact h.owned, by rw [h1, h2, h3]; exact h.swept⟩
  · refine ⟨hsane, ?_, ?_⟩
    · rw [h2, h3]
      intro k q hq
      obtain ⟨p, hp⟩ := h.owned k q hq
      exact get_set_some hp
    · rw [h1, h2, h3]
      intro hd hf
      obtain ⟨q, p, hq, hph⟩ := h.swept hd hf
      exact ⟨q, p, by rw [Assoc.get_set_ne _ (Nat.ne_of_lt (h.sane.servers q p hq))]; exact hq, hph⟩
  · rw [hs] at hsane ⊢
    have owned_set : ∀ v, ∀ k q, m.files.get k = some q → ∃ p', (m.servers.set pid v).get q = some p' := by
      intro v k q hq
      obtain ⟨p, hp⟩ := h.owned k q hq
      exact get_set_some hp
    -- a server that is not the owner of a socket may end
    have owned_del : (∀ k, m.files.get k ≠ some pid) → ∀ k q, m.files.get k = some q → ∃ p', (m.servers.del pid).get q = some p' := by
      intro hno k q hq
      obtain ⟨p, hp⟩ := h.owned k q hq
      refine ⟨p, ?_⟩
      rw [Assoc.get_del_ne (by rintro rfl; exact hno k hq)]
      exact hp
    have notOwner : ¬ (p.phase = .listening ∨ p.phase = .ending) → ∀ k, m.files.get k ≠ some pid := by
      intro hno k hk
      exact hno ((h.sane.owner k pid hk).2 p hp).2
    rcases (go_cases m pid p).2.2 with ⟨hph, e⟩ | ⟨hph, hor, e⟩ | ⟨hph, hd, hno, e⟩ | ⟨_, e⟩ | ⟨hph, _, e⟩ | ⟨hph, hno, e⟩ | ⟨hph, hl, e⟩ |
      ⟨hph, hl, e⟩ | ⟨hph, e⟩ <;> rw [e] at hsane ⊢
    · exact ⟨hsane, owned_set _, fun _ _ => ⟨pid, _, Assoc.get_set_self .., .inl rfl⟩⟩
    · refine ⟨hsane, owned_set _, fun hd hf => ?_⟩
      rcases hor with hor | hor
      · rw [show m.dir = true from hd] at hor; cases hor
      · rw [show m.files = [] from hf] at hor; cases hor
    · refine ⟨hsane, ?_, fun _ hf => absurd hf set_ne_nil⟩
      intro k q hq
      have hq : (m.files.set p.name pid).get k = some q := hq
      rw [Assoc.get_set] at hq
      split at hq
      · cases hq; exact ⟨_, Assoc.get_set_self ..⟩
      · exact owned_set _ k q hq
    · exact h
    · refine ⟨hsane, ?_, fun _ _ => ⟨pid, _, Assoc.get_set_self .., .inr (.inl rfl)⟩⟩
      intro k q hq
      have hq : (m.files.del p.name).get k = some q := hq
      rw [Assoc.get_del] at hq
      split at hq
      · cases hq
      · exact owned_set _ k q hq
    · refine ⟨hsane, owned_del ?_, fun hd hf => ?_⟩
      · intro k hk
        have := ((h.sane.owner k pid hk).2 p hp).1
        rw [this, Assoc.has_false, hk] at hno
        cases hno
      · obtain ⟨q, p', hq, hph'⟩ := h.swept hd hf
        refine ⟨q, p', ?_, hph'⟩
        show (m.servers.del pid).get q = _
        rw [Assoc.get_del_ne]
        · exact hq
        · rintro rfl
          obtain rfl : p = p' := Option.some.inj (hp.symm.trans hq)
          rw [hph] at hph'
          rcases hph' with hh | hh | hh <;> cases hh
    · exact ⟨hsane, owned_set _, fun _ _ => ⟨pid, _, Assoc.get_set_self .., .inr (.inr rfl)⟩⟩
    · refine ⟨hsane, owned_del (notOwner (by rw [hph]; rintro (hh | hh) <;> cases hh)), fun hd hf => ?_⟩
      exfalso
      apply hl
      unfold list
      rw [show m.files = [] from hf]
      split <;> rfl
    · refine ⟨hsane, owned_del (notOwner (by rw [hph]; rintro (hh | hh) <;> cases hh)), fun hd hf => ?_⟩
      have hd : (m.dir && !m.files.isEmpty) = true := hd
      rw [show m.files = [] from hf] at hd
      simp at hd
  · rw [hs] at hsane ⊢
    refine ⟨hsane, ?_, ?_⟩
    · intro k q hq
      obtain ⟨p, hp⟩ := h.owned k q hq
      exact get_set_some hp
    · intro hd hf
      obtain ⟨q, p', hq, hph'⟩ := h.swept hd hf
      refine ⟨q, p', ?_, hph'⟩
      show (m.servers.set pid _).get q = _
      rw [Assoc.get_set_ne]
      · exact hq
      · rintro rfl
        obtain rfl : p = p' := Option.some.inj (hp.symm.trans hq)
        rw [hph] at hph'
        rcases hph' with hh | hh | hh <;> cases hh
  · exact absurd rfl (hst pid)

theorem tidied_run {steps : List Step} (h : ∀ q, .crash q ∉ steps) : Tidied (fresh.run steps) := by
  refine machine_run_invariant (P := Tidied) (ok := fun st => ∀ q, st ≠ .crash q) (fun m st hm hst => tidied_step hm hst)
    ⟨reached_sane ⟨[], rfl⟩, fun n q hq => (by cases hq), fun hd => (by cases hd)⟩ ?_
  rintro st hst q rfl
  exact h q hst

/-- C79: as long as no server crashes, each session that is listed has a server, which listens or is about to remove its
socket. -/
theorem C79_list {steps : List Step} (h : ∀ q, .crash q ∉ steps) {n : Str} (hn : n ∈ (fresh.run steps).list) :
    ∃ q p, (fresh.run steps).servers.get q = some p ∧ p.name = n ∧ (p.phase = .listening ∨ p.phase = .ending) := by
  have t := tidied_run h
  unfold list at hn
  split at hn
  · rw [Assoc.mem_keys, Assoc.has_iff] at hn
    obtain ⟨q, hq⟩ := hn
    obtain ⟨p, hp⟩ := t.owned n q hq
    exact ⟨q, p, hp, (t.sane.owner n q hq).2 p hp⟩
  · cases hn

/-- C79: as long as no server crashes, nothing is left when all the servers have ended: no socket and no directory. -/
theorem C79_clean {steps : List Step} (h : ∀ q, .crash q ∉ steps) (hs : (fresh.run steps).servers = []) :
    (fresh.run steps).files = [] ∧ (fresh.run steps).dir = false := by
  have t := tidied_run h
  have hf : (fresh.run steps).files = [] := by
    rw [assoc_nil]
    intro n
    cases hg : (fresh.run steps).files.get n with
    | none => rfl
    | some q =>
      obtain ⟨p, hp⟩ := t.owned n q hg
      rw [hs] at hp
      cases hp
  refine ⟨hf, ?_⟩
  cases hd : (fresh.run steps).dir with
  | false => rfl
  | true =>
    obtain ⟨q, p, hq, _⟩ := t.swept hd hf
    rw [hs] at hq
    cases hq

/-! ### After a crash -/

/-- The socket of a server that is no more, and no server of this name. -/
structure Orphan (n : Str) (pid : Nat) (m : Machine) : Prop where
  sane : Sane m
  file : m.files.get n = some pid
  dead : m.servers.get pid = none
  none : ∀ q p, m.servers.get q = some p → p.name ≠ n

theorem orphan_dir {n : Str} {pid : Nat} {m : Machine} (h : Orphan n pid m) : m.dir = true :=
  h.sane.dir fun e => by
    have := h.file
    rw [assoc_nil.1 e n] at this
    cases this

theorem orphan_connects {n : Str} {pid : Nat} {m : Machine} (h : Orphan n pid m) : connectsTo m n = .refused := by
  unfold connectsTo
  cases hl : m.listener n with
  | none => rfl
  | some q =>
    obtain ⟨hf, p, hp, _⟩ := listener_iff.1 hl
    rw [h.file] at hf
    cases hf
    rw [h.dead] at hp
    cases hp

theorem orphan_step {n : Str} {pid : Nat} {m : Machine} (h : Orphan n pid m) {st : Step} (hst : st ≠ .server n) :
    Orphan n pid (m.step st) := by
  have hsane := sane_step h.sane st
  have hlt := (h.sane.owner n pid h.file).1
  obtain ⟨hn, hc⟩ := step_cases m st
  -- changes of the servers of other names
  have hset : ∀ q v, q ≠ pid → v.name ≠ n → (m.servers.set q v).get pid = none ∧ ∀ q' p', (m.servers.set q v).get q' = some p' → p'.name ≠ n := by
    intro q v hq hv
    refine ⟨by rw [Assoc.get_set_ne _ (fun e => hq e.symm)]; exact h.dead, fun q' p' hq' => ?_⟩
    rw [Assoc.get_set] at hq'
    split at hq'
    · cases hq'; exact hv
    · exact h.none q' p' hq'
  have hdel : ∀ q, (m.servers.del q).get pid = none ∧ ∀ q' p', (m.servers.del q).get q' = some p' → p'.name ≠ n := by
    intro q
    refine ⟨by rw [Assoc.get_del]; split <;> simp [h.dead], fun q' p' hq' => ?_⟩
    rw [Assoc.get_del] at hq'
    split at hq'
    · cases hq'
    · exact h.none q' p' hq'
  rcases hc with ⟨h1, h2, h3⟩ | ⟨k, h1, h2, h3, h4, h5⟩ | ⟨q, p, rfl, hp, hs⟩ | ⟨q, p, rfl, hp, _, hs⟩ | ⟨q, rfl, hs⟩
  · exact ⟨hsane, by rw [h2]; exact h.file, by rw [h3]; exact h.dead, by rw [h3]; exact h.none⟩
  · have hk : k ≠ n := by
      rcases h5 with rfl | ⟨c, cp, _, _, hcp, hdf⟩
      · rintro rfl; exact hst rfl
      · rintro rfl
        rw [orphan_dir h, show m.files.has k = true from Assoc.has_iff.2 ⟨_, h.file⟩] at hdf
        cases hdf
    obtain ⟨a, b⟩ := hset m.next ⟨k, .starting, false⟩ (Nat.ne_of_gt hlt) hk
    exact ⟨hsane, by rw [h2]; exact h.file, by rw [h3]; exact a, by rw [h3]; exact b⟩
  · have hq : q ≠ pid := by rintro rfl; rw [h.dead] at hp; cases hp
    have hnn := h.none q p hp
    rw [hs] at hsane ⊢
    rcases (go_cases m q p).2.2 with ⟨hph, e⟩ | ⟨hph, _, e⟩ | ⟨hph, hd, _, e⟩ | ⟨hph, e⟩ | ⟨hph, _, e⟩ | ⟨hph, _, e⟩ | ⟨hph, _, e⟩ |
      ⟨hph, _, e⟩ | ⟨hph, e⟩ <;> rw [e] at hsane ⊢
    · exact ⟨hsane, h.file, (hset q _ hq (by exact hnn)).1, (hset q _ hq (by exact hnn)).2⟩
    · exact ⟨hsane, h.file, (hset q _ hq (by exact hnn)).1, (hset q _ hq (by exact hnn)).2⟩
    · exact ⟨hsane, by show (m.files.set p.name q).get n = _; rw [Assoc.get_set_ne _ (fun hh => hnn hh.symm)]; exact h.file,
        (hset q _ hq (by exact hnn)).1, (hset q _ hq (by exact hnn)).2⟩
    · exact h
    · exact ⟨hsane, by show (m.files.del p.name).get n = _; rw [Assoc.get_del_ne (fun hh => hnn hh.symm)]; exact h.file,
        (hset q _ hq (by exact hnn)).1, (hset q _ hq (by exact hnn)).2⟩
    · exact ⟨hsane, h.file, (hdel q).1, (hdel q).2⟩
    · exact ⟨hsane, h.file, (hset q _ hq (by exact hnn)).1, (hset q _ hq (by exact hnn)).2⟩
    · exact ⟨hsane, h.file, (hdel q).1, (hdel q).2⟩
    · exact ⟨hsane, h.file, (hdel q).1, (hdel q).2⟩
  · have hq : q ≠ pid := by rintro rfl; rw [h.dead] at hp; cases hp
    have hnn := h.none q p hp
    rw [hs] at hsane ⊢
    exact ⟨hsane, h.file, (hset q _ hq (by exact hnn)).1, (hset q _ hq (by exact hnn)).2⟩
  · rw [hs] at hsane ⊢
    exact ⟨hsane, h.file, (hdel q).1, (hdel q).2⟩

/-- C80: once the server of a session has crashed while it listened, as long as nobody starts another server of this name by
hand: the session is still listed, no client starts a server for it, and every client that comes for it is refused. -/
theorem C80_crashed {m : Machine} (hr : Reached m) {n : Str} {pid : Nat} (hl : m.listener n = some pid)
    (only : ∀ q p, m.servers.get q = some p → p.name = n → q = pid)
    {steps : List Step} (hst : .server n ∉ steps) :
    n ∈ ((m.step (.crash pid)).run steps).list ∧
    (∀ q p, ((m.step (.crash pid)).run steps).servers.get q = some p → p.name ≠ n) ∧
      ∀ c cp, m.next ≤ c → ((m.step (.crash pid)).run steps).clients.get c = some cp → cp.name = n →
        cp.phase = .checking ∨ cp.phase = .connecting ∨ cp.phase = .refused := by
  obtain ⟨hf, p, hp, hph⟩ := listener_iff.1 hl
  have hs := sane_step (reached_sane hr) (.crash pid)
  have h0 : Orphan n pid (m.step (.crash pid)) := by
    refine ⟨hs, hf, ?_, fun q p' hq hn => ?_⟩
    · show (m.servers.del pid).get pid = none
      rw [Assoc.get_del, if_pos rfl]
    · have hq : (m.servers.del pid).get q = some p' := hq
      rw [Assoc.get_del] at hq
      split at hq
      · cases hq
      · rename_i hne
        exact hne (only q p' hq hn)
  have key : ∀ (steps : List Step) (m1 : Machine), (.server n ∉ steps) → Orphan n pid m1 →
      Joining n .refused m.next m1 → Orphan n pid (m1.run steps) ∧ Joining n .refused m.next (m1.run steps) := by
    intro steps
    induction steps with
    | nil => exact fun m1 _ h1 h2 => ⟨h1, h2⟩
    | cons st steps ih =>
      intro m1 h h1 h2
      exact ih _ (fun hs => h (List.mem_cons_of_mem _ hs)) (orphan_step h1 fun e => h (e ▸ List.mem_cons_self))
        (joining_step (orphan_dir h1) (Assoc.has_iff.2 ⟨_, h1.file⟩) (orphan_connects h1) ⟨0, .inr rfl⟩ h2 st)
  obtain ⟨h1, h2⟩ := key steps _ hst h0 (by
    intro c cp hc hg _
    exact absurd (reached_clients hr c cp hg) (Nat.not_lt.2 hc))
  refine ⟨?_, h1.none, h2⟩
  unfold list
  rw [orphan_dir h1, if_pos rfl, Assoc.mem_keys, Assoc.has_iff]
  exact ⟨_, h1.file⟩

/-- C80: such a client is refused after two system calls of its own, whatever else happens meanwhile. -/
theorem C80_refused {m : Machine} (hr : Reached m) {n : Str} {pid : Nat} (hl : m.listener n = some pid)
    (only : ∀ q p, m.servers.get q = some p → p.name = n → q = pid)
    {before after : List Step} (hb : .server n ∉ before) (ha : .server n ∉ after)
    (hcalls : 2 ≤ callsOf ((m.step (.crash pid)).run before).next after) :
    (((m.step (.crash pid)).run before).run (.client n :: after)).clients.get ((m.step (.crash pid)).run before).next =
      some ⟨n, .refused⟩ := by
  obtain ⟨hf, p, hp, hph⟩ := listener_iff.1 hl
  have hs := sane_step (reached_sane hr) (.crash pid)
  have h0 : Orphan n pid (m.step (.crash pid)) := by
    refine ⟨hs, hf, ?_, fun q p' hq hn => ?_⟩
    · show (m.servers.del pid).get pid = none
      rw [Assoc.get_del, if_pos rfl]
    · have hq : (m.servers.del pid).get q = some p' := hq
      rw [Assoc.get_del] at hq
      split at hq
      · cases hq
      · rename_i hne
        exact hne (only q p' hq hn)
  have key : ∀ (steps : List Step) (m1 : Machine), (.server n ∉ steps) → Orphan n pid m1 → Orphan n pid (m1.run steps) := by
    intro steps
    induction steps with
    | nil => exact fun m1 _ h1 => h1
    | cons st steps ih =>
      intro m1 h h1
      exact ih _ (fun hs => h (List.mem_cons_of_mem _ hs)) (orphan_step h1 fun e => h (e ▸ List.mem_cons_self))
  have hr2 : Reached ((m.step (.crash pid)).run before) := by
    have := reached_run hr (.crash pid :: before)
    exact this
  have h1 := orphan_step (key before _ hb h0) (st := .client n) (by simp)
  have h2 := along_run (ok := fun st => st ≠ .server n) (I := Orphan n pid) (fun m st h hok => orphan_step h hok)
    (fun m h => ⟨orphan_dir h, Assoc.has_iff.2 ⟨_, h.file⟩, orphan_connects h⟩) ⟨0, .inr rfl⟩ after _ 0 h1
    (along_new hr2 n .refused) fun st hst e => ha (e ▸ hst)
  have h3 := h2.client
  rw [phaseAfter_two (by omega)] at h3
  exact h3

/-- C80: a server started by hand for a session that has a socket, whoever it leads to, removes it and ends: the first three
system calls of the new server leave the other servers as they are, and nobody can reach the session any more. -/
theorem C80_removed {m : Machine} (hr : Reached m) {n : Str} {pid : Nat} (hf : m.files.get n = some pid) :
    ∃ m', m.run [.server n, .go m.next, .go m.next, .go m.next] = m' ∧
      m'.listener n = none ∧ n ∉ m'.list ∧ m'.files = m.files.del n ∧ m'.clients = m.clients ∧
      (∀ q, q ≠ m.next → m'.servers.get q = m.servers.get q) ∧
      m'.servers.get m.next = some ⟨n, .unlinked, false⟩ := by
  have hs := reached_sane hr
  have hd : m.dir = true := hs.dir fun e => by
    rw [assoc_nil.1 e n] at hf
    cases hf
  have hh : m.files.has n = true := Assoc.has_iff.2 ⟨_, hf⟩
  have e1 : m.step (.server n) = m.spawn n := rfl
  have g1 : (m.spawn n).servers.get m.next = some ⟨n, .starting, false⟩ := Assoc.get_set_self ..
  have e2 : (m.spawn n).step (.go m.next) = { m.spawn n with dir := true, servers := (m.spawn n).servers.set m.next ⟨n, .ready, false⟩ } := by
    simp only [step, g1, goServer]
  generalize hm2 : ({ m.spawn n with dir := true, servers := (m.spawn n).servers.set m.next ⟨n, .ready, false⟩ } : Machine) = m2 at e2
  have g2 : m2.servers.get m.next = some ⟨n, .ready, false⟩ := by rw [← hm2]; exact Assoc.get_set_self ..
  have f2 : m2.files = m.files := by rw [← hm2]; rfl
  have e3 : m2.step (.go m.next) = { m2 with servers := m2.servers.set m.next ⟨n, .ending, false⟩ } := by
    simp only [step, g2, goServer, f2, hh, or_true, if_true]
  generalize hm3 : ({ m2 with servers := m2.servers.set m.next ⟨n, .ending, false⟩ } : Machine) = m3 at e3
  have g3 : m3.servers.get m.next = some ⟨n, .ending, false⟩ := by rw [← hm3]; exact Assoc.get_set_self ..
  have f3 : m3.files = m.files := by rw [← hm3]; exact f2
  have e4 : m3.step (.go m.next) = { m3 with files := m.files.del n, servers := m3.servers.set m.next ⟨n, .unlinked, false⟩ } := by
    simp only [step, g3, goServer, f3, hh, if_true]
  refine ⟨_, rfl, ?_⟩
  have e : m.run [.server n, .go m.next, .go m.next, .go m.next] =
      { m3 with files := m.files.del n, servers := m3.servers.set m.next ⟨n, .unlinked, false⟩ } := by
    simp only [run, List.foldl]
    rw [e1, e2, e3, e4]
  rw [e]
  have hnone : (m.files.del n).get n = none := by rw [Assoc.get_del, if_pos rfl]
  refine ⟨?_, ?_, rfl, ?_, ?_, Assoc.get_set_self ..⟩
  · unfold listener
    rw [show ({ m3 with files := m.files.del n, servers := m3.servers.set m.next ⟨n, .unlinked, false⟩ } : Machine).files.get n = none from hnone]
  · unfold list
    split
    · rw [Assoc.mem_keys, Assoc.has_iff]
      rintro ⟨v, hv⟩
      rw [show Assoc.get _ n = none from hnone] at hv
      cases hv
    · exact fun hn => nomatch hn
  · rw [← hm3, ← hm2]; rfl
  · intro q hq
    show (m3.servers.set m.next _).get q = _
    rw [Assoc.get_set_ne _ hq, ← hm3]
    show (m2.servers.set m.next _).get q = _
    rw [Assoc.get_set_ne _ hq, ← hm2]
    show ((m.servers.set m.next _).set m.next _).get q = _
    rw [Assoc.get_set_ne _ hq, Assoc.get_set_ne _ hq]

/-- C79: a client that comes for a session without a socket, undisturbed, starts a server, waits until it is ready, and is
connected to it; and the session is listed. -/
theorem C79_alone {m : Machine} (hr : Reached m) {n : Str} (hf : m.files.get n = none) :
    ∃ m', m.run [.client n, .go m.next, .go (m.next + 1), .go m.next, .go (m.next + 1), .go m.next, .go m.next] = m' ∧
      m'.clients.get m.next = some ⟨n, .connected (m.next + 1)⟩ ∧ m'.listener n = some (m.next + 1) ∧ n ∈ m'.list := by
  have hh : m.files.has n = false := Assoc.has_false.2 hf
  have hsn : ∀ p, m.servers.get m.next ≠ some p := fun p hp => Nat.lt_irrefl _ ((reached_sane hr).servers _ p hp)
  have hsn : m.servers.get m.next = none := by
    cases hs : m.servers.get m.next with
    | none => rfl
    | some p => exact absurd hs (hsn p)
  have ne : m.next ≠ m.next + 1 := by omega
  generalize hc : m.next = c at *
  -- the client comes
  obtain ⟨m1, e1, d1⟩ : ∃ m1, m.step (.client n) = m1 ∧
      m1 = { m with clients := m.clients.set c ⟨n, .checking⟩, next := c + 1 } := ⟨_, rfl, by simp only [step, hc]⟩
  have s1 : m1.servers = m.servers := by rw [d1]
  have c1 : m1.clients.get c = some ⟨n, .checking⟩ := by rw [d1]; exact Assoc.get_set_self ..
  have f1 : m1.files = m.files := by rw [d1]
  have n1 : m1.next = c + 1 := by rw [d1]
  -- it starts a server
  obtain ⟨m2, e2⟩ : ∃ m2, m1.step (.go c) = m2 := ⟨_, rfl⟩
  have d2 : m2 = { m1.spawn n with clients := m1.clients.set c ⟨n, .waiting (c + 1)⟩ } := by
    rw [← e2]
    simp only [step, s1, hsn, c1, goClient, f1, hh, Bool.and_false, n1]
    rfl
  have s2 : m2.servers.get (c + 1) = some ⟨n, .starting, false⟩ := by rw [d2, ← n1]; exact Assoc.get_set_self ..
  have k2 : m2.servers.get c = none := by
    rw [d2]
    show (m1.servers.set m1.next _).get c = none
    rw [n1, Assoc.get_set_ne _ ne, s1, hsn]
  have c2 : m2.clients.get c = some ⟨n, .waiting (c + 1)⟩ := by rw [d2]; exact Assoc.get_set_self ..
  have f2 : m2.files = m.files := by rw [d2]; exact f1
  -- the directory
  obtain ⟨m3, e3⟩ : ∃ m3, m2.step (.go (c + 1)) = m3 := ⟨_, rfl⟩
  have d3 : m3 = { m2 with dir := true, servers := m2.servers.set (c + 1) ⟨n, .ready, false⟩ } := by
    rw [← e3]
    simp only [step, s2, goServer]
  have s3 : m3.servers.get (c + 1) = some ⟨n, .ready, false⟩ := by rw [d3]; exact Assoc.get_set_self ..
  have k3 : m3.servers.get c = none := by rw [d3]; exact (Assoc.get_set_ne _ ne).trans k2
  have c3 : m3.clients.get c = some ⟨n, .waiting (c + 1)⟩ := by rw [d3]; exact c2
  have f3 : m3.files = m.files := by rw [d3]; exact f2
  have D3 : m3.dir = true := by rw [d3]
  -- the client waits
  have e4 : m3.step (.go c) = m3 := by
    simp only [step, k3, c3, goClient, s3]
    rfl
  -- the server listens
  obtain ⟨m5, e5⟩ : ∃ m5, m3.step (.go (c + 1)) = m5 := ⟨_, rfl⟩
  have d5 : m5 = { m3 with files := m.files.set n (c + 1), servers := m3.servers.set (c + 1) ⟨n, .listening, true⟩ } := by
    rw [← e5]
    simp only [step, s3, goServer, D3, f3, hh]
    rfl
  have s5 : m5.servers.get (c + 1) = some ⟨n, .listening, true⟩ := by rw [d5]; exact Assoc.get_set_self ..
  have k5 : m5.servers.get c = none := by rw [d5]; exact (Assoc.get_set_ne _ ne).trans k3
  have c5 : m5.clients.get c = some ⟨n, .waiting (c + 1)⟩ := by rw [d5]; exact c3
  have f5 : m5.files.get n = some (c + 1) := by rw [d5]; exact Assoc.get_set_self ..
  have D5 : m5.dir = true := by rw [d5]; exact D3
  -- the client connects
  obtain ⟨m6, e6⟩ : ∃ m6, m5.step (.go c) = m6 := ⟨_, rfl⟩
  have d6 : m6 = { m5 with clients := m5.clients.set c ⟨n, .connecting⟩ } := by
    rw [← e6]
    simp only [step, k5, c5, goClient, s5]
    rfl
  have k6 : m6.servers.get c = none := by rw [d6]; exact k5
  have c6 : m6.clients.get c = some ⟨n, .connecting⟩ := by rw [d6]; exact Assoc.get_set_self ..
  have l6 : m6.listener n = some (c + 1) := listener_iff.2 ⟨by rw [d6]; exact f5, _, by rw [d6]; exact s5, rfl⟩
  obtain ⟨m7, e7⟩ : ∃ m7, m6.step (.go c) = m7 := ⟨_, rfl⟩
  have d7 : m7 = { m6 with clients := m6.clients.set c ⟨n, .connected (c + 1)⟩ } := by
    rw [← e7]
    simp only [step, k6, c6, goClient, l6]
  have e : m.run [.client n, .go c, .go (c + 1), .go c, .go (c + 1), .go c, .go c] = m7 := by
    simp only [run, List.foldl]
    rw [e1, e2, e3, e4, e5, e6, e7]
  refine ⟨m7, e, by rw [d7]; exact Assoc.get_set_self .., by rw [d7]; exact l6, ?_⟩
  unfold list
  rw [show m7.dir = true by rw [d7, d6]; exact D5, if_pos rfl, Assoc.mem_keys, Assoc.has_iff]
  exact ⟨c + 1, by rw [d7, d6]; exact f5⟩

/-! ### Concrete cases -/

/-- Two sessions, started one after the other by a client each: the servers 2 and 4. -/
def exampleTwo : List Step :=
  [.client (str!"a"), .go 1, .go 2, .go 2, .go 1, .go 1, .client (str!"b"), .go 3, .go 4, .go 4, .go 3, .go 3]

example : (fresh.run exampleTwo).listener (str!"a") = some 2 ∧ (fresh.run exampleTwo).listener (str!"b") = some 4 ∧
    (fresh.run exampleTwo).list = [str!"a", str!"b"] ∧
    (fresh.run exampleTwo).servers.map (fun e => (e.1, e.2.name)) = [(2, str!"a"), (4, str!"b")] := by decide +kernel

/-- While "b" ends, a client comes for "a" and is connected. -/
def exampleEnd : List Step := [.go 5, .lastLeave 4, .go 4, .go 5, .go 4, .go 4]

theorem exampleTwo_only : ∀ q p, (fresh.run exampleTwo).servers.get q = some p → p.name = str!"a" → q = 2 := by
  intro q p hq hn
  have hm := Assoc.get_mem hq
  have hall : ∀ e ∈ (fresh.run exampleTwo).servers, e.2.name = str!"a" → e.1 = 2 := by decide +kernel
  exact hall _ hm hn

example : (fresh.run (exampleTwo ++ .client (str!"a") :: exampleEnd)).clients.get 5 = some ⟨str!"a", .connected 2⟩ := by
  have h := C79_connects (m := fresh.run exampleTwo) ⟨exampleTwo, rfl⟩ (n := str!"a") (pid := 2) (by decide +kernel)
    exampleTwo_only (steps := exampleEnd) (by decide +kernel) (by decide +kernel)
  rw [machine_run_append]
  exact h

example : ((fresh.run exampleTwo).run exampleEnd).list = [str!"a"] := by decide +kernel

/-- Both sessions end, in any order: nothing is left. -/
example : (fresh.run (exampleTwo ++ [.lastLeave 2, .lastLeave 4, .go 2, .go 4, .go 2, .go 4, .go 2, .go 4])).servers = [] ∧
    (∀ q, Step.crash q ∉ exampleTwo ++ [.lastLeave 2, .lastLeave 4, .go 2, .go 4, .go 2, .go 4, .go 2, .go 4]) ∧
    (fresh.run (exampleTwo ++ [.lastLeave 2, .lastLeave 4, .go 2, .go 4, .go 2, .go 4, .go 2, .go 4])).dir = false := by
  refine ⟨by decide +kernel, ?_, by decide +kernel⟩
  intro q
  simp [exampleTwo]

/-- After a crash of "a": it is still listed, and the next client is refused. -/
example : (((fresh.run exampleTwo).step (.crash 2)).run [.client (str!"a"), .go 5, .go 5]).clients.get 5 =
    some ⟨str!"a", .refused⟩ :=
  C80_refused (m := fresh.run exampleTwo) ⟨exampleTwo, rfl⟩ (n := str!"a") (pid := 2) (by decide +kernel) exampleTwo_only
    (before := []) (after := [.go 5, .go 5]) (by decide) (by decide) (by decide +kernel)

/-- With a crash, something may be left when no server runs: the hypothesis of `C79_clean` is needed. -/
theorem C79_clean_refuted : ∃ steps, (fresh.run steps).servers = [] ∧ (fresh.run steps).list = [str!"a"] :=
  ⟨[.server (str!"a"), .go 1, .go 1, .crash 1], by decide +kernel, by decide +kernel⟩

/-- C79_alone needs that nobody disturbs: "a" has seen that no session is left; then the directory is there for the server
of "b" and is removed before it binds, so that the server fails and its client is refused. -/
theorem C79_race_refuted : ∃ steps c, (∀ q, Step.crash q ∉ steps) ∧ (∀ n, Step.server n ∉ steps) ∧
    Step.client (str!"b") ∈ steps ∧ (fresh.run steps).clients.get c = some ⟨str!"b", .refused⟩ ∧
    (fresh.run steps).servers = [] :=
  ⟨[.client (str!"a"), .go 1, .go 2, .go 2, .go 1, .go 1, .client (str!"b"), .lastLeave 2, .go 2, .go 2, .go 3, .go 4, .go 2,
    .go 4, .go 4, .go 3, .go 3], 3, by intro q; simp, by intro q; simp, by decide, by decide +kernel, by decide +kernel⟩

/-- Two clients come at the same time for a session that does not run: both start a server, the second server cannot bind and
removes the socket of the first on its way out.  The first client is connected to a server that is not listed, and the next
client starts a second server of the same name. -/
theorem C80_twice_refuted : ∃ steps, (∀ q, Step.crash q ∉ steps) ∧ (∀ n, Step.server n ∉ steps) ∧
    (fresh.run steps).clients.get 1 = some ⟨str!"a", .connected 3⟩ ∧
    (fresh.run steps).clients.get 5 = some ⟨str!"a", .connected 6⟩ ∧
    (fresh.run steps).servers.get 3 = some ⟨str!"a", .listening, true⟩ ∧
    (fresh.run steps).servers.get 6 = some ⟨str!"a", .listening, true⟩ :=
  ⟨[.client (str!"a"), .client (str!"a"), .go 1, .go 2, .go 3, .go 3, .go 1, .go 1, .go 4, .go 4, .go 4, .go 4, .go 4,
    .client (str!"a"), .go 5, .go 6, .go 6, .go 5, .go 5], by intro q; simp, by intro q; simp, by decide +kernel,
    by decide +kernel, by decide +kernel, by decide +kernel⟩

/-- The hypotheses of `C80_removed` and `C79_alone` in the example. -/
example : (fresh.run exampleTwo).files.get (str!"a") = some 2 ∧ (fresh.run exampleTwo).files.get (str!"c") = none := by
  decide +kernel

end Ced.Props
