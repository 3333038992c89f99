import Verif.Model.Assoc

/-! # Lemmas on finite maps -/

namespace Ced.Assoc
variable {K V W : Type} [DecidableEq K]

@[simp] theorem get_nil (k : K) : get ([] : Assoc K V) k = none := rfl

@[simp] theorem get_set_self (m : Assoc K V) (k : K) (v : V) : get (set m k v) k = some v := by
  induction m with
  | nil => simp [set, get]
  | cons kv m ih =>
    obtain ⟨k', v'⟩ := kv
    by_cases h : k' = k <;> simp [set, get, h, ih]

theorem get_set_ne {m : Assoc K V} {k k' : K} (v : V) (h : k' ≠ k) : get (set m k v) k' = get m k' := by
  induction m with
  | nil => simp [set, get, Ne.symm h]
  | cons kv m ih =>
    obtain ⟨k2, v2⟩ := kv
    by_cases h2 : k2 = k
    · subst h2; simp [set, get, Ne.symm h]
    · by_cases h3 : k2 = k'
      · subst h3; simp [set, get, h2]
      · simp [set, get, h2, h3, ih]

theorem get_set (m : Assoc K V) (k k' : K) (v : V) :
    get (set m k v) k' = if k' = k then some v else get m k' := by
  by_cases h : k' = k
  · subst h; simp
  · rw [if_neg h, get_set_ne v h]

@[simp] theorem get_del_self (m : Assoc K V) (k : K) : get (del m k) k = none := by
  induction m with
  | nil => rfl
  | cons kv m ih =>
    obtain ⟨k', v'⟩ := kv
    by_cases h : k' = k <;> simp [del, get, h, ih]

theorem get_del_ne {m : Assoc K V} {k k' : K} (h : k' ≠ k) : get (del m k) k' = get m k' := by
  induction m with
  | nil => rfl
  | cons kv m ih =>
    obtain ⟨k2, v2⟩ := kv
    by_cases h2 : k2 = k
    · subst h2; simp [del, get, ih, Ne.symm h]
    · by_cases h3 : k2 = k'
      · subst h3; simp [del, get, h2]
      · simp [del, get, h2, h3, ih]

theorem get_del (m : Assoc K V) (k k' : K) : get (del m k) k' = if k' = k then none else get m k' := by
  by_cases h : k' = k
  · subst h; simp
  · rw [if_neg h, get_del_ne h]

theorem has_iff {m : Assoc K V} {k : K} : has m k = true ↔ ∃ v, get m k = some v := by
  unfold has; rw [Option.isSome_iff_exists]

theorem has_false {m : Assoc K V} {k : K} : has m k = false ↔ get m k = none := by
  unfold has; simp

theorem has_set (m : Assoc K V) (k k' : K) (v : V) : has (set m k v) k' = (decide (k' = k) || has m k') := by
  unfold has; rw [get_set]; by_cases h : k' = k <;> simp [h]

theorem has_del (m : Assoc K V) (k k' : K) : has (del m k) k' = (!decide (k' = k) && has m k') := by
  unfold has; rw [get_del]; by_cases h : k' = k <;> simp [h]

theorem at_ok {m : Assoc K V} {k : K} {v : V} (h : get m k = some v) : at! m k = .ok v := by simp [at!, h]

theorem at_inv {m : Assoc K V} {k : K} {v : V} (h : at! m k = .ok v) : get m k = some v := by
  unfold at! at h
  split at h
  · rename_i v' hv; cases h; exact hv
  · cases h

theorem get_orInsert (m : Assoc K V) (k k' : K) (v : V) :
    get (orInsert m k v) k' = if k' = k then some ((get m k).getD v) else get m k' := by
  unfold orInsert
  by_cases h : has m k = true
  · rw [if_pos h]
    obtain ⟨w, hw⟩ := has_iff.1 h
    by_cases h2 : k' = k
    · subst h2; simp [hw]
    · rw [if_neg h2]
  · rw [if_neg h, get_set]
    have : get m k = none := has_false.1 (by simpa using h)
    simp [this]

theorem mem_keys {m : Assoc K V} {k : K} : k ∈ keys m ↔ has m k = true := by
  induction m with
  | nil => simp [keys, has]
  | cons kv m ih =>
    obtain ⟨k', v'⟩ := kv
    have ih' : k ∈ List.map Prod.fst m ↔ (get m k).isSome = true := ih
    simp only [keys, List.map_cons, List.mem_cons, has, get, ih']
    by_cases h : k' = k
    · simp [h]
    · simp [h, Ne.symm h]

theorem get_mapVals (m : Assoc K V) (f : K → V → W) (k : K) : get (mapVals m f) k = (get m k).map (f k) := by
  induction m with
  | nil => rfl
  | cons kv m ih =>
    obtain ⟨k', v'⟩ := kv
    have ih' : get (List.map (fun kv => (kv.1, f kv.1 kv.2)) m) k = Option.map (f k) (get m k) := ih
    by_cases h : k' = k
    · subst h; simp [mapVals, get]
    · simp [mapVals, get, h, ih']

theorem has_mapVals (m : Assoc K V) (f : K → V → W) (k : K) : has (mapVals m f) k = has m k := by
  unfold has; rw [get_mapVals]; simp

theorem keys_mapVals (m : Assoc K V) (f : K → V → W) : keys (mapVals m f) = keys m := by
  simp [keys, mapVals, Function.comp_def]

theorem get_mem {m : Assoc K V} {k : K} {v : V} (h : get m k = some v) : (k, v) ∈ m := by
  induction m with
  | nil => cases h
  | cons kv m ih =>
    obtain ⟨k', v'⟩ := kv
    simp only [get] at h
    split at h
    · rename_i e; cases h; subst e; simp
    · exact List.mem_cons_of_mem _ (ih h)

theorem keys_set (m : Assoc K V) (k : K) (v : V) : keys (set m k v) = if k ∈ keys m then keys m else keys m ++ [k] := by
  induction m with
  | nil => simp [set, keys]
  | cons kv m ih =>
    obtain ⟨k', v'⟩ := kv
    by_cases h : k' = k
    · subst h; simp [set, keys]
    · have h' : k ≠ k' := Ne.symm h
      simp only [keys] at ih ⊢
      simp only [set, if_neg h, List.map_cons, ih, List.mem_cons, h', false_or]
      split <;> simp [*]

theorem keys_del (m : Assoc K V) (k : K) : keys (del m k) = (keys m).filter (· ≠ k) := by
  induction m with
  | nil => rfl
  | cons kv m ih =>
    obtain ⟨k', v'⟩ := kv
    simp only [keys] at ih ⊢
    by_cases h : k' = k
    · simp [del, h, ih]
    · simp [del, h, ih]

theorem mem_get {m : Assoc K V} (hn : (keys m).Nodup) {k : K} {v : V} (h : (k, v) ∈ m) : get m k = some v := by
  induction m with
  | nil => cases h
  | cons kv m ih =>
    obtain ⟨k', v'⟩ := kv
    simp only [keys, List.map_cons, List.nodup_cons] at hn
    rcases List.mem_cons.1 h with e | e
    · cases e; simp [get]
    · have hne : k' ≠ k := by
        intro e'; subst e'
        exact hn.1 (List.mem_map.2 ⟨_, e, rfl⟩)
      simp only [get, if_neg hne]
      exact ih hn.2 e

theorem nodup_set {m : Assoc K V} (h : (keys m).Nodup) (k : K) (v : V) : (keys (set m k v)).Nodup := by
  rw [keys_set]
  split
  · exact h
  · rename_i hk
    rw [List.nodup_append]
    exact ⟨h, by simp, by intro a ha b hb; simp at hb; subst hb; exact fun e => hk (e ▸ ha)⟩

theorem nodup_del {m : Assoc K V} (h : (keys m).Nodup) (k : K) : (keys (del m k)).Nodup := by
  rw [keys_del]; exact h.filter _

theorem nodup_orInsert {m : Assoc K V} (h : (keys m).Nodup) (k : K) (v : V) : (keys (orInsert m k v)).Nodup := by
  unfold orInsert; split
  · exact h
  · exact nodup_set h k v

end Ced.Assoc
