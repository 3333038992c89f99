import Verif.Model.History
import Verif.Proofs.Boundary

/-! Auxiliary lemmas: the piece table refines the snapshot editor. -/

namespace Ced
open Spec

/-- The inserted text of an edit, if any, is not empty. -/
def Spec.Edit.NonEmpty : Edit → Prop
  | .insert _ x => x ≠ []
  | .append x => x ≠ []
  | .replace _ _ x => x ≠ []
  | _ => True

namespace PieceTable

/-- kind of an action -/
def kindOf : Option Action → Option Kind
  | some .insert => some .insertion
  | some .delete => some .deletion
  | _ => none

/-- The editor state a piece table stands for. -/
def abs (t : PieceTable) : Editor where
  text := t.content
  past := t.undos.map (contentOf t.original t.added)
  future := t.redos.map (contentOf t.original t.added)
  group := kindOf t.lastAction

/-- What holds between two calls. -/
structure Ready (t : PieceTable) : Prop where
  wf : t.WF
  noBulk : t.lastAction ≠ some .bulk

theorem map_contentOf_extend {o a x : Bytes} {l : List Pieces} (h : ∀ ps ∈ l, Chain o a 0 ps) :
    l.map (contentOf o (a ++ x)) = l.map (contentOf o a) := by
  apply List.map_congr_left
  intro ps hps
  exact contentOf_extend x (h ps hps)

theorem action_abs {t : PieceTable} (hr : t.Ready) {a : Action} {k : Kind} (hk : kindOf (some a) = some k) :
    (t.action a).abs = t.abs.edit k t.content ∧ (t.action a).lastAction = some a := by
  have ha : a ≠ .bulk := by intro h; rw [h] at hk; cases hk
  unfold action Editor.edit
  rw [if_neg hr.noBulk]
  by_cases hl : t.lastAction = some a
  · have : (t.abs.group = some k) := by simp only [abs, hl, hk]
    rw [if_neg (by simp [hl]), if_pos this]
    exact ⟨rfl, hl⟩
  · have : ¬ (t.abs.group = some k) := by
      simp only [abs]
      intro h
      apply hl
      cases hla : t.lastAction with
      | none => rw [hla] at h; cases h
      | some b =>
        rw [hla] at h
        cases a <;> cases b <;> simp_all [kindOf]
        all_goals (rw [← hk] at h; cases h)
    rw [if_pos hl, if_neg this]
    refine ⟨?_, rfl⟩
    have hc := (repack_chain hr.wf.pieces).2
    simp only [abs, commit, Editor.snapshot, content, List.map_cons, hk]
    rw [hc]
    rfl

/-- From `action` and the effect of the edit to the abstract edit. -/
theorem abs_of_effect {t t' : PieceTable} (hr : t.Ready) {a : Action} {k : Kind}
    (hk : kindOf (some a) = some k) {text x : Bytes} (heff : Effect t t' text)
    (hu : t'.undos = (t.action a).undos) (hrd : t'.redos = (t.action a).redos)
    (hl : t'.lastAction = (t.action a).lastAction) (ho : t'.original = t.original)
    (ha : t'.added = t.added ++ x) : t'.Ready ∧ t'.abs = t.abs.edit k text := by
  obtain ⟨e1, e2⟩ := action_abs hr hk
  have hw := action_WF hr.wf a
  have hu' : t'.undos.map (contentOf t'.original t'.added) =
      (t.action a).undos.map (contentOf (t.action a).original (t.action a).added) := by
    have := hw.undos
    rw [action_original, action_added] at this
    rw [hu, ho, ha, action_original, action_added, map_contentOf_extend this]
  have hr' : t'.redos.map (contentOf t'.original t'.added) =
      (t.action a).redos.map (contentOf (t.action a).original (t.action a).added) := by
    have := hw.redos
    rw [action_original, action_added] at this
    rw [hrd, ho, ha, action_original, action_added, map_contentOf_extend this]
  constructor
  · refine ⟨heff.wf, ?_⟩
    rw [hl, e2]
    intro h; cases h; cases hk
  · have key : t'.abs = { (t.action a).abs with text := text } := by
      simp only [abs, hu', hr', heff.content, hl]
    rw [key, e1]
    unfold Editor.edit
    split <;> rfl

theorem replace_eq {h : StaleHandle} (hf : h.follows = true) {t t' : PieceTable} (hr : t.Ready) {a n : Nat}
    {x : Bytes} (hx : x ≠ []) (hd : t.replace h a n x = .ok t') :
    t'.Ready ∧ t'.abs = (t.abs.step (.replace a n x)).1 ∧ (t.NewlinesOk → t'.NewlinesOk) := by
  unfold replace at hd
  have hsb : t.startBulk = { t.commit with lastAction := some .bulk } := by
    unfold startBulk action
    rw [if_neg hr.noBulk, if_pos hr.noBulk]
  have hwsb : t.startBulk.WF := action_WF hr.wf .bulk
  have hcsb : t.startBulk.content = t.content := action_content hr.wf .bulk
  have hla : t.startBulk.lastAction = some .bulk := by rw [hsb]
  have hact : ∀ (u : PieceTable) (b : Action), u.lastAction = some .bulk → u.action b = u := by
    intro u b hb; unfold action; rw [if_pos hb]
  simp only at hd
  rcases delete_eq hf hwsb a n with ⟨u, e1, heff, hu1, hu2, hu3, hu4, hu5⟩ | ⟨e1, _⟩ | ⟨e1, _⟩
  · rw [e1] at hd
    simp only [except_bind_ok, except_pure] at hd
    cases hd
    rw [hact _ _ hla] at hu1 hu2 hu3
    have hlu : u.lastAction = some .bulk := by rw [hu3, hla]
    obtain ⟨ieff, hi1, hi2, hi3, hi4, hi5⟩ := insert_eq heff.wf hx a
    rw [hact _ _ hlu] at hi1 hi2 hi3
    have hcc : (u.insert a x).content = splice (cut t.content a n) a x := by
      rw [ieff.content, heff.content, hcsb]
    have hundo : (u.insert a x).undos.map (contentOf t.original (t.added ++ x)) =
        t.content :: t.undos.map (contentOf t.original t.added) := by
      have hch := hwsb.undos
      rw [startBulk, action_original, action_added] at hch
      rw [hi1, hu1, map_contentOf_extend (l := t.startBulk.undos) hch]
      have : t.startBulk.undos = t.pieces.repack :: t.undos := by rw [hsb]; rfl
      rw [this, List.map_cons, (repack_chain hr.wf.pieces).2]
      rfl
    have horig : (u.insert a x).original = t.original := by rw [hi4, hu4, startBulk, action_original]
    have hadd : (u.insert a x).added = t.added ++ x := by rw [hi5, hu5, startBulk, action_added]
    refine ⟨⟨⟨ieff.wf.pieces, ieff.wf.undos, ieff.wf.redos⟩, by simp [endBulk]⟩, ?_, ?_⟩
    · have hredo : (u.insert a x).redos = [] := by rw [hi2, hu2, hsb]; rfl
      have e : (u.insert a x).endBulk.abs =
          { text := (u.insert a x).content, past := (u.insert a x).undos.map
              (contentOf (u.insert a x).original (u.insert a x).added), future := (u.insert a x).redos.map
              (contentOf (u.insert a x).original (u.insert a x).added), group := none } := rfl
      rw [e, hcc, horig, hadd, hundo, hredo]
      rfl
    · intro hnl
      have hnsb : t.startBulk.NewlinesOk := by
        unfold NewlinesOk; rw [hcsb, startBulk, action_newlines]; exact hnl
      exact ieff.newlines (heff.newlines hnsb)
  · rw [e1] at hd; cases hd
  · rw [e1] at hd; cases hd

theorem step_refines {h : StaleHandle} (hf : h.follows = true) {t t' : PieceTable} (hr : t.Ready) {e : Edit}
    (hne : e.NonEmpty) {b : Bool} (hs : t.step h e = .ok (t', b)) :
    t'.Ready ∧ (t'.abs, b) = t.abs.step e := by
  cases e with
  | insert o x =>
    simp only [step, Except.ok.injEq, Prod.mk.injEq] at hs
    obtain ⟨rfl, rfl⟩ := hs
    obtain ⟨heff, hu, hrd, hl, ho, ha⟩ := insert_eq hr.wf hne o
    obtain ⟨h1, h2⟩ := abs_of_effect hr rfl heff hu hrd hl ho ha
    exact ⟨h1, by rw [h2]; rfl⟩
  | append x =>
    simp only [step, Except.ok.injEq, Prod.mk.injEq] at hs
    obtain ⟨rfl, rfl⟩ := hs
    obtain ⟨heff, hu, hrd, hl, ho, ha⟩ := append_eq hr.wf hne
    obtain ⟨h1, h2⟩ := abs_of_effect hr rfl heff hu hrd hl ho ha
    exact ⟨h1, by rw [h2]; rfl⟩
  | delete a n =>
    simp only [step] at hs
    rcases delete_eq hf hr.wf a n with ⟨u, e1, heff, hu, hrd, hl, ho, ha⟩ | ⟨e1, _⟩ | ⟨e1, _⟩
    · rw [e1] at hs
      simp only [except_bind_ok, except_pure, Except.ok.injEq, Prod.mk.injEq] at hs
      obtain ⟨rfl, rfl⟩ := hs
      obtain ⟨h1, h2⟩ := abs_of_effect (x := []) hr rfl heff hu hrd hl ho (by simpa using ha)
      exact ⟨h1, by rw [h2]; rfl⟩
    · rw [e1] at hs; cases hs
    · rw [e1] at hs; cases hs
  | replace a n x =>
    simp only [step] at hs
    cases hd : t.replace h a n x with
    | error e => rw [hd] at hs; cases hs
    | ok u =>
      rw [hd] at hs
      simp only [except_bind_ok, except_pure, Except.ok.injEq, Prod.mk.injEq] at hs
      obtain ⟨rfl, rfl⟩ := hs
      obtain ⟨h1, h2, _⟩ := replace_eq hf hr hne hd
      exact ⟨h1, by rw [h2]; rfl⟩
  | undo =>
    simp only [step, Except.ok.injEq] at hs
    unfold undo at hs
    split at hs
    · rename_i ps rest hu
      cases hs
      refine ⟨⟨⟨hr.wf.undos ps (by simp [hu]), fun q hq => hr.wf.undos q (by simp [hu, hq]), ?_⟩, by simp⟩, ?_⟩
      · intro q hq
        rcases List.mem_cons.1 hq with rfl | hq
        · exact hr.wf.pieces
        · exact hr.wf.redos q hq
      · simp only [Editor.step, abs, hu, List.map_cons]
        rfl
    · rename_i hu
      cases hs
      refine ⟨hr, ?_⟩
      simp only [Editor.step, abs, hu, List.map_nil]
  | redo =>
    simp only [step, Except.ok.injEq] at hs
    unfold redo at hs
    split at hs
    · rename_i ps rest hu
      cases hs
      refine ⟨⟨⟨hr.wf.redos ps (by simp [hu]), ?_, fun q hq => hr.wf.redos q (by simp [hu, hq])⟩, by simp⟩, ?_⟩
      · intro q hq
        rcases List.mem_cons.1 hq with rfl | hq
        · exact hr.wf.pieces
        · exact hr.wf.undos q hq
      · simp only [Editor.step, abs, hu, List.map_cons]
        rfl
    · rename_i hu
      cases hs
      refine ⟨hr, ?_⟩
      simp only [Editor.step, abs, hu, List.map_nil]

theorem run_refines {t t' : PieceTable} (hr : t.Ready) {ops : List (StaleHandle × Edit)}
    (hf : ∀ op ∈ ops, op.1.follows = true) (hne : ∀ op ∈ ops, op.2.NonEmpty) {bs : List Bool}
    (hs : t.run ops = .ok (t', bs)) : t'.Ready ∧ (t'.abs, bs) = t.abs.run (ops.map (·.2)) := by
  induction ops generalizing t bs with
  | nil => simp only [run, Except.ok.injEq, Prod.mk.injEq] at hs; obtain ⟨rfl, rfl⟩ := hs; exact ⟨hr, rfl⟩
  | cons op ops ih =>
    obtain ⟨h, e⟩ := op
    simp only [run] at hs
    cases h1 : t.step h e with
    | error e => rw [h1] at hs; cases hs
    | ok r =>
      rw [h1] at hs
      simp only [except_bind_ok] at hs
      obtain ⟨u, b⟩ := r
      obtain ⟨hu1, hu2⟩ := step_refines (hf (h, e) (by simp)) hr (hne (h, e) (by simp)) h1
      cases h2 : u.run ops with
      | error e => rw [h2] at hs; cases hs
      | ok r2 =>
        rw [h2] at hs
        simp only [except_bind_ok, except_pure, Except.ok.injEq, Prod.mk.injEq] at hs
        obtain ⟨rfl, rfl⟩ := hs
        obtain ⟨g1, g2⟩ := ih hu1 (fun op hop => hf op (by simp [hop])) (fun op hop => hne op (by simp [hop])) h2
        refine ⟨g1, ?_⟩
        simp only [List.map_cons, Editor.run]
        rw [← hu2]
        simp only
        rw [← g2]

theorem ready_new : PieceTable.new.Ready := ⟨⟨trivial, by simp [PieceTable.new], by simp [PieceTable.new]⟩, by simp [PieceTable.new]⟩

theorem withText_facts {s : Bytes} (hs : s ≠ []) :
    (withText s).Ready ∧ (withText s).content = s ∧ (withText s).NewlinesOk := by
  have hc : (withText s).content = s := by
    simp [withText, content, Pieces.insert, pieceBytes, bufOf]
  refine ⟨⟨⟨?_, by simp [withText], by simp [withText]⟩, by simp [withText]⟩, hc, ?_⟩
  · simp [withText, Pieces.insert, chain_cons, bufOf]
    exact List.length_pos_iff.2 hs
  · unfold NewlinesOk
    rw [hc]
    simp only [withText, matchNewlines_eq]
    refine sorted_ext (sorted_setExtend sorted_nil) (sorted_newlinePositions s) ?_
    intro x; simp [mem_setExtend]

theorem new_facts : PieceTable.new.content = [] ∧ PieceTable.new.NewlinesOk := ⟨rfl, rfl⟩

end PieceTable
end Ced
