import Verif.Model.ShortName
import Verif.Props.SessionName

/-!
# C55: short buffer names are unambiguous
-/

namespace Ced.Props

open ShortName

/-- The last `k` components of a path, joined by slashes. -/
def lastParts (p : FilePath) (k : Nat) : Str := joined '/' (p.rev.take k).reverse

/-- The path has at depth `k` (0 is the file's name) a component that no other one of these paths has at
that depth. -/
def UniqueAt (paths : List FilePath) (p : FilePath) (k : Nat) : Prop :=
  k < p.rev.length ∧ (paths.countP fun q => q.rev[k]? = p.rev[k]?) ≤ 1

/-- No component down to this depth is `..`. -/
def NoDots (p : FilePath) (k : Nat) : Prop := ∀ i ≤ k, p.rev[i]? ≠ some ['.', '.']

/-- The component at a depth of one of the paths. -/
def below (j : Nat) (paths : List FilePath) : List FilePath :=
  paths.filterMap fun q => if j ≤ q.rev.length then some ⟨q.rev.drop j⟩ else none

theorem below_zero (paths : List FilePath) : below 0 paths = paths := by
  simp [below]

theorem below_parent (j : Nat) (paths : List FilePath) :
    (below j paths).filterMap FilePath.parent = below (j + 1) paths := by
  unfold below
  rw [List.filterMap_filterMap]
  congr 1
  funext q
  split
  · rename_i h
    simp only [Option.bind_some, FilePath.parent]
    cases hd : q.rev.drop j with
    | nil =>
      have := List.drop_eq_nil_iff.mp hd
      rw [if_neg (by omega)]
    | cons c r =>
      have hl : j < q.rev.length := by
        rcases Nat.lt_or_ge j q.rev.length with h' | h'
        · exact h'
        · rw [List.drop_eq_nil_iff.mpr h'] at hd; cases hd
      rw [if_pos (by omega)]
      have : q.rev.drop (j + 1) = r := by
        rw [← List.drop_drop, hd]; rfl
      rw [this]
  · rw [if_neg (by omega)]; rfl

theorem count_below {j : Nat} {paths : List FilePath} {c : Str} (hc : c ≠ ['.', '.']) :
    ((below j paths).countP fun x => x.fileName = some c) = paths.countP fun q => q.rev[j]? = some c := by
  unfold below
  rw [List.countP_filterMap]
  congr 1
  funext q
  split
  · rename_i h
    simp only [FilePath.fileName]
    have : q.rev[j]? = (q.rev.drop j).head? := by simp
    rw [this]
    cases hd : q.rev.drop j with
    | nil => simp
    | cons x r =>
      simp only [List.head?_cons, Option.some.injEq]
      by_cases hx : x = ['.', '.']
      · subst hx
        simp [Ne.symm hc]
      · simp [hx]
  · have : q.rev[j]? = none := by simp; omega
    simp [this]

theorem joined_snoc {sep : Char} {l : List Str} {a : Str} (hl : l ≠ []) :
    joined sep (a :: l) = a ++ sep :: joined sep l := by
  cases l with
  | nil => exact absurd rfl hl
  | cons b l => rfl

/-- What the search does below a depth, once it has come so far. -/
theorem findUniq_at {p : FilePath} {paths : List FilePath} (hne : ∀ c ∈ p.rev, c ≠ []) :
    ∀ (r : List Str) (j : Nat), p.rev.drop j = r →
    ∀ n, findUniqName r (lastParts p j) (below j paths) = .ok n ↔
      ∃ k, j ≤ k ∧ UniqueAt paths p k ∧ (∀ i, j ≤ i → i < k → ¬ UniqueAt paths p i) ∧
        (∀ i, j ≤ i → i ≤ k → p.rev[i]? ≠ some ['.', '.']) ∧ n = lastParts p (k + 1) := by
  intro r
  induction r with
  | nil =>
    intro j hr n
    have hj := List.drop_eq_nil_iff.mp hr
    constructor
    · intro h; cases h
    · rintro ⟨k, hk, hu, -⟩
      have := hu.1; omega
  | cons c r ih =>
    intro j hr n
    have hjl : j < p.rev.length := by
      rcases Nat.lt_or_ge j p.rev.length with h' | h'
      · exact h'
      · rw [List.drop_eq_nil_iff.mpr h'] at hr; cases hr
    have hc : p.rev[j]? = some c := by
      have : p.rev[j]? = (p.rev.drop j).head? := by simp
      rw [this, hr]; rfl
    have hr' : p.rev.drop (j + 1) = r := by rw [← List.drop_drop, hr]; rfl
    have hcne : c ≠ [] := hne c (List.mem_of_getElem? hc)
    unfold findUniqName
    by_cases hd : c = ['.', '.']
    · rw [if_pos hd]
      constructor
      · intro h; cases h
      · rintro ⟨k, hk, -, -, hdd, -⟩
        exact absurd (by rw [hc, hd]) (hdd j (Nat.le_refl _) hk)
    · rw [if_neg hd]
      dsimp only
      rw [count_below hd, below_parent]
      have hacc : (if lastParts p j = [] then c else c ++ '/' :: lastParts p j) = lastParts p (j + 1) := by
        unfold lastParts
        have ht : p.rev.take (j + 1) = p.rev.take j ++ [c] := by
          rw [List.take_add_one, hc]; rfl
        rw [ht, List.reverse_append]
        simp only [List.reverse_cons, List.reverse_nil, List.nil_append, List.singleton_append]
        cases hj : (p.rev.take j).reverse with
        | nil => simp [joined]
        | cons a l =>
          rw [joined_snoc (l := a :: l) (a := c) (by simp)]
          rw [if_neg]
          have ha : a ∈ p.rev := by
            have : a ∈ (p.rev.take j).reverse := by rw [hj]; simp
            exact List.mem_of_mem_take (List.mem_reverse.mp this)
          have := hne a ha
          cases l <;> simp [joined, this]
      rw [hacc]
      have hu : UniqueAt paths p j ↔ ¬ (paths.countP fun q => q.rev[j]? = some c) > 1 := by
        unfold UniqueAt
        rw [hc]
        constructor
        · rintro ⟨-, h⟩; omega
        · intro h; exact ⟨hjl, by omega⟩
      split
      · rename_i hgt
        rw [ih (j + 1) hr' n]
        constructor
        · rintro ⟨k, hk, h1, h2, h3, h4⟩
          refine ⟨k, by omega, h1, fun i hi hik => ?_, fun i hi hik => ?_, h4⟩
          · rcases Nat.eq_or_lt_of_le hi with rfl | hlt
            · exact fun hh => hu.mp hh hgt
            · exact h2 i hlt hik
          · rcases Nat.eq_or_lt_of_le hi with rfl | hlt
            · rw [hc]; simpa using hd
            · exact h3 i hlt hik
        · rintro ⟨k, hk, h1, h2, h3, h4⟩
          have : j ≠ k := by rintro rfl; exact hu.mp h1 hgt
          exact ⟨k, by omega, h1, fun i hi => h2 i (by omega), fun i hi => h3 i (by omega), h4⟩
      · rename_i hle
        constructor
        · intro h
          injection h with h
          exact ⟨j, Nat.le_refl _, hu.mpr hle, fun i _ _ => by omega, fun i _ hi => by
            have : i = j := by omega
            subst this; rw [hc]; simpa using hd, h.symm⟩
        · rintro ⟨k, hk, h1, h2, h3, h4⟩
          have : k = j := by
            rcases Nat.eq_or_lt_of_le hk with h | h
            · exact h.symm
            · exact absurd (hu.mpr hle) (h2 j (Nat.le_refl _) h)
          subst this
          rw [h4]

/-- The components of a path: not empty and without slashes. -/
def PathOk (p : Path) : Prop := ∀ c ∈ p, c ≠ [] ∧ '/' ∉ c

theorem part_ok {p : Path} (h : PathOk p) {c : Str} (hc : c ∈ (FilePath.ofPath p).rev) : c ≠ [] ∧ '/' ∉ c :=
  h c (List.mem_reverse.mp hc)

theorem shortest_iff {source : BufferSource} {sources : List BufferSource} {n : Str} :
    shortestName source sources = .ok n ↔ source ∈ sources ∧ findShortestName sources source = .ok n := by
  unfold shortestName
  cases h : sources.find? (· = source) with
  | none =>
    refine ⟨fun e => (by cases e), fun ⟨e, _⟩ => ?_⟩
    have := List.find?_eq_none.1 h source e
    simp at this
  | some s =>
    have e : s = source := by simpa using List.find?_some h
    subst e
    exact ⟨fun e => ⟨List.mem_of_find?_eq_some h, e⟩, fun e => e.2⟩

theorem name_of {sources : List BufferSource} {path : Path} {n : Str} (ok : PathOk path) :
    findShortestName sources (.file path) = .ok n ↔
      ∃ k, UniqueAt (pathSet sources) (FilePath.ofPath path) k ∧
        (∀ i < k, ¬ UniqueAt (pathSet sources) (FilePath.ofPath path) i) ∧
        NoDots (FilePath.ofPath path) k ∧ n = lastParts (FilePath.ofPath path) (k + 1) := by
  have := findUniq_at (p := FilePath.ofPath path) (paths := pathSet sources)
    (fun c hc => (part_ok ok hc).1) _ 0 rfl n
  rw [below_zero] at this
  have h0 : lastParts (FilePath.ofPath path) 0 = [] := by simp [lastParts, joined]
  rw [h0, List.drop_zero] at this
  unfold findShortestName
  rw [this]
  constructor
  · rintro ⟨k, -, h1, h2, h3, h4⟩
    exact ⟨k, h1, fun i hi => h2 i (Nat.zero_le _) hi, fun i hi => h3 i (Nat.zero_le _) hi, h4⟩
  · rintro ⟨k, h1, h2, h3, h4⟩
    exact ⟨k, Nat.zero_le _, h1, fun i _ hi => h2 i hi, fun i _ hi => h3 i hi, h4⟩

theorem pieces_joined {sep : Char} {l : List Str} (hl : l ≠ []) (h : ∀ p ∈ l, sep ∉ p) :
    pieces sep (joined sep l) = l := by
  induction l with
  | nil => exact absurd rfl hl
  | cons a l ih =>
    cases l with
    | nil => exact pieces_none (h a (by simp))
    | cons b l =>
      rw [joined_snoc (by simp), pieces_cons (h a (by simp)), ih (by simp) fun p hp => h p (by simp [hp])]

theorem two_count {α : Type} {f : α → Bool} {l : List α} {a b : α} (ha : a ∈ l) (hb : b ∈ l) (hab : a ≠ b)
    (h1 : f a = true) (h2 : f b = true) : 2 ≤ l.countP f := by
  induction l with
  | nil => cases ha
  | cons c l ih =>
    rcases List.mem_cons.mp ha with rfl | ha'
    · rcases List.mem_cons.mp hb with rfl | hb'
      · exact absurd rfl hab
      · have : 0 < l.countP f := List.countP_pos_iff.mpr ⟨b, hb', h2⟩
        rw [List.countP_cons_of_pos h1]; omega
    · rcases List.mem_cons.mp hb with rfl | hb'
      · have : 0 < l.countP f := List.countP_pos_iff.mpr ⟨a, ha', h1⟩
        rw [List.countP_cons_of_pos h2]; omega
      · have := ih ha' hb'
        rw [List.countP_cons]; omega

/-- C55 (what the name is): the short name of an open file is the end of its path, down to the least depth at
which no other open file has the same component; there is a name only if there is such a depth, and no `..`
before it.  A file that is not open has none. -/
theorem C55_name {sources : List BufferSource} {path : Path} {n : Str} (ok : PathOk path) :
    shortestName (.file path) sources = .ok n ↔ .file path ∈ sources ∧
      ∃ k, UniqueAt (pathSet sources) (FilePath.ofPath path) k ∧
        (∀ i < k, ¬ UniqueAt (pathSet sources) (FilePath.ofPath path) i) ∧
        NoDots (FilePath.ofPath path) k ∧ n = lastParts (FilePath.ofPath path) (k + 1) := by
  rw [shortest_iff, name_of ok]

/-- C55 (scratch buffers): the short name of an open scratch buffer is its name. -/
theorem C55_scratch_name {sources : List BufferSource} {name n : Str} :
    shortestName (.scratch name) sources = .ok n ↔ .scratch name ∈ sources ∧ n = name := by
  rw [shortest_iff]
  show _ ∧ Except.ok name = Except.ok n ↔ _
  constructor
  · rintro ⟨h, e⟩; cases e; exact ⟨h, rfl⟩
  · rintro ⟨h, rfl⟩; exact ⟨h, rfl⟩

/-- A file of the sources. -/
theorem mem_pathSet {sources : List BufferSource} {path : Path} (h : .file path ∈ sources) :
    FilePath.ofPath path ∈ pathSet sources := List.mem_filterMap.mpr ⟨_, h, rfl⟩

/-- C55 (unambiguous): two open files with different paths never have the same short name; indeed the short
name of one is never the end of the other's path. -/
theorem C55_distinct {sources : List BufferSource} {p q : Path} {m n : Str} (okp : PathOk p) (okq : PathOk q)
    (hne : p ≠ q) (hm : shortestName (.file p) sources = .ok m) (hn : shortestName (.file q) sources = .ok n) :
    m ≠ n ∧ ∀ k, m ≠ lastParts (FilePath.ofPath q) k := by
  obtain ⟨hp, hm⟩ := shortest_iff.mp hm
  obtain ⟨hq, hn⟩ := shortest_iff.mp hn
  have key : ∀ k, m ≠ lastParts (FilePath.ofPath q) k := by
    rintro k' rfl
    obtain ⟨k, hu, -, -, he⟩ := (name_of okp).mp hm
    have hlen := hu.1
    unfold lastParts at he
    have h1 : pieces '/' (joined '/' ((FilePath.ofPath p).rev.take (k + 1)).reverse) =
        ((FilePath.ofPath p).rev.take (k + 1)).reverse := by
      apply pieces_joined
      · intro h
        have := congrArg List.length h
        simp at this
        rw [this] at hlen
        simp at hlen
      · intro c hc
        exact (part_ok okp (List.mem_of_mem_take (List.mem_reverse.mp hc))).2
    cases hz : ((FilePath.ofPath q).rev.take k').reverse with
    | nil =>
      rw [hz] at he
      rw [← he] at h1
      have h2 : ((FilePath.ofPath p).rev.take (k + 1)).reverse = [[]] := by
        rw [← h1]; rfl
      have : ([] : Str) ∈ (FilePath.ofPath p).rev := by
        have : ([] : Str) ∈ ((FilePath.ofPath p).rev.take (k + 1)).reverse := by rw [h2]; simp
        exact List.mem_of_mem_take (List.mem_reverse.mp this)
      exact (part_ok okp this).1 rfl
    | cons a l =>
      have h2 : pieces '/' (joined '/' ((FilePath.ofPath q).rev.take k').reverse) =
          ((FilePath.ofPath q).rev.take k').reverse := by
        apply pieces_joined
        · rw [hz]; simp
        · intro c hc
          exact (part_ok okq (List.mem_of_mem_take (List.mem_reverse.mp hc))).2
      rw [he, h1] at h2
      have h3 : (FilePath.ofPath p).rev.take (k + 1) = (FilePath.ofPath q).rev.take k' := by
        have := congrArg List.reverse h2
        simpa using this
      have h4 : (FilePath.ofPath q).rev[k]? = (FilePath.ofPath p).rev[k]? := by
        have e1 : ((FilePath.ofPath p).rev.take (k + 1))[k]? = (FilePath.ofPath p).rev[k]? := by
          rw [List.getElem?_take]; simp
        rw [h3, List.getElem?_take] at e1
        split at e1
        · exact e1
        · rw [List.getElem?_eq_getElem hlen] at e1; cases e1
      have := two_count (f := fun x => decide (x.rev[k]? = (FilePath.ofPath p).rev[k]?)) (mem_pathSet hp)
        (mem_pathSet hq) (fun h => hne (by simpa [FilePath.ofPath] using h)) (by simp) (by simpa using h4)
      have h5 := hu.2
      omega
  refine ⟨?_, key⟩
  rintro rfl
  obtain ⟨k, -, -, -, he⟩ := (name_of okq).mp hn
  exact key _ he

/-- C55 is not vacuous: the names of the repository's test. -/
def fiveSources : List BufferSource :=
  [.scratch str!"*buffer*", .file [str!"some", str!"file.ext"], .file [str!"some", str!"where", str!"file.where"],
    .file [str!"any", str!"where", str!"file.where"], .file [str!"any", str!"where", str!"here", str!"file.where"]]

example : fiveSources.map (shortestName · fiveSources) =
    [.ok str!"*buffer*", .ok str!"file.ext", .ok str!"some/where/file.where", .ok str!"any/where/file.where",
      .ok str!"here/file.where"] := by decide +kernel

/-- C55, refuted for all path sets: with `/a` and `/b/a` open, asking for the name of `/a` crashes, since its
path has no further component. -/
theorem C55_crash : shortestName (.file [str!"a"]) [.file [str!"a"], .file [str!"b", str!"a"]] = .error .unwrap ∧
    shortestName (.file [str!"b", str!"a"]) [.file [str!"a"], .file [str!"b", str!"a"]] = .ok str!"b/a" := by
  decide +kernel

/-- The name need not be the shortest: `x/a` would do for the first file, but another file has the directory
`x` at that depth. -/
theorem C55_not_shortest : shortestName (.file [str!"p", str!"x", str!"a"])
    [.file [str!"p", str!"x", str!"a"], .file [str!"q", str!"y", str!"a"], .file [str!"r", str!"x", str!"c"]] = .ok str!"p/x/a" := by decide +kernel

/-- A scratch buffer can have the name of a file. -/
theorem C55_scratch : [BufferSource.scratch str!"f", .file [str!"d", str!"f"]].map
    (shortestName · [.scratch str!"f", .file [str!"d", str!"f"]]) = [.ok str!"f", .ok str!"f"] := by decide +kernel

end Ced.Props
