import Verif.Proofs.Whole
import Verif.Proofs.Exact
import Verif.Props.AnyServer
import Verif.Proofs.DiffExact

/-!
# C96: no character is cut in two, so what is shown is the text itself
(and C09: exactly when `text()` is the text)
-/

namespace Ced.Props
open Spec PieceTable

/-! ## Single edits: exactly when `text()` is still the text -/

/-- C09, exactly: after text has been put into a buffer of whole characters, `text()` is the text just when it was put between
two characters. -/
theorem C09_insert_exact {t : PieceTable} (h : CleanHistory t) {s : Bytes} (hs : Shows t s) (k : Nat) {x : Bytes}
    (hx : x ≠ []) (hxt : IsText x) : (t.insert k x).text = .ok (splice s k x) ↔ IsBoundary s k := by
  obtain ⟨hr, ht⟩ := clean_ok h
  have hc := (shows_iff hr.wf).1 hs
  subst hc
  have heff := (insert_eq hr.wf hx k).1
  constructor
  · intro he
    rw [← heff.content] at he
    rcases Nat.lt_or_ge k t.content.length with hk | hk
    · have hb := exact_boundary heff.wf he (insert_uncrossed hr.wf hx hk)
      refine isBoundary_of_take ht.isText ?_
      have := hb.1
      rw [heff.content] at this
      unfold splice at this
      rwa [List.append_assoc, List.take_append_of_le_length (by rw [List.length_take]; omega), List.take_take, Nat.min_self] at this
    · exact isBoundary_end ht.isText hk
  · intro hb
    have := text_eq heff.wf (insert_TextOk hr.wf ht hx hxt hb).pieces
    rwa [heff.content] at this

theorem delete_exact {t t' : PieceTable} (hr : t.Ready) (ht : t.TextOk) {hd : StaleHandle} (hf : hd.follows = true) {a n : Nat}
    (hdel : t.delete hd a n = .ok t') :
    t'.content = cut t.content a n ∧ t'.WF ∧
      (t'.text = .ok t'.content ↔ IsBoundary t.content a ∧ IsBoundary t.content (a + n)) := by
  rcases delete_eq hf hr.wf a n with ⟨u, e1, heff, _⟩ | ⟨e1, _⟩ | ⟨e1, _⟩
  · rw [hdel] at e1
    cases e1
    refine ⟨heff.content, heff.wf, ?_, ?_⟩
    · intro he
      have hb := exact_boundary heff.wf he (delete_uncrossed hr.wf hdel)
      rw [heff.content] at hb
      rcases Nat.lt_or_ge a t.content.length with hk | hk
      · have h1 : IsText (t.content.take a) := by
          have := hb.1
          unfold cut at this
          rwa [List.take_append_of_le_length (by rw [List.length_take]; omega), List.take_take, Nat.min_self] at this
        have h2 : IsText (t.content.drop (a + n)) := by
          have := hb.2
          unfold cut at this
          rwa [List.drop_append_of_le_length (by rw [List.length_take]; omega), List.drop_take, Nat.sub_self, List.take_zero,
            List.nil_append] at this
        refine ⟨isBoundary_of_take ht.isText h1, isBoundary_of_take ht.isText ?_⟩
        exact isText_cancel_right h2 (by rw [List.take_append_drop]; exact ht.isText)
      · exact ⟨isBoundary_end ht.isText hk, isBoundary_end ht.isText (by omega)⟩
    · rintro ⟨hb1, hb2⟩
      exact text_eq heff.wf (delete_TextOk hf hr.wf ht hb1 hb2 hdel).pieces
  · rw [hdel] at e1; cases e1
  · rw [hdel] at e1; cases e1

/-- C09, exactly: after a deletion from a buffer of whole characters, `text()` is the text just when what was deleted began and
ended between two characters. -/
theorem C09_delete_exact {t t' : PieceTable} (h : CleanHistory t) {s : Bytes} (hs : Shows t s) {hd : StaleHandle}
    (hf : hd.follows = true) {a n : Nat} (hdel : t.delete hd a n = .ok t') :
    t'.text = .ok (cut s a n) ↔ IsBoundary s a ∧ IsBoundary s (a + n) := by
  obtain ⟨hr, ht⟩ := clean_ok h
  have hc := (shows_iff hr.wf).1 hs
  subst hc
  obtain ⟨h1, _, h2⟩ := delete_exact hr ht hf hdel
  rw [← h1]
  exact h2

/-- Between `a` and `é` text can be put and bytes taken away, inside `é` they cannot. -/
example : let t := PieceTable.withText [97, 195, 169, 10]
    CleanHistory t ∧ Shows t [97, 195, 169, 10] ∧ IsBoundary [97, 195, 169, 10] 1 ∧ ¬ IsBoundary [97, 195, 169, 10] 2 ∧
    (t.insert 1 [98]).text = .ok [97, 98, 195, 169, 10] ∧ (t.insert 2 [98]).text ≠ .ok [97, 195, 98, 169, 10] ∧
    ∃ t', t.delete H 1 1 = .ok t' ∧ t'.text ≠ .ok [97, 169, 10] := by
  intro t
  have h : CleanHistory t := .withText (by simp) ⟨['a', 'é', '\n'], by decide⟩
  have hs : Shows t [97, 195, 169, 10] := (shows_iff (clean_ok h).1.wf).2 (by decide)
  have ht : IsText [97, 195, 169, 10] := ⟨['a', 'é', '\n'], by decide⟩
  have b1 : IsBoundary [97, 195, 169, 10] 1 := isBoundary_of_take ht ⟨['a'], by decide⟩
  have b2 : ¬ IsBoundary [97, 195, 169, 10] 2 := by
    rw [← isCharBoundary_iff ht (by decide)]
    decide
  refine ⟨h, hs, b1, b2, (C09_insert_exact h hs 1 (by simp) ⟨['b'], by decide⟩).2 b1, fun e =>
    b2 ((C09_insert_exact h hs 2 (x := [98]) (by simp) ⟨['b'], by decide⟩).1 e), ?_⟩
  obtain ⟨t', e, _⟩ := C02_delete_inside (t := t) (.withText (by simp) trivial) hs (hd := H) rfl (a := 1) (n := 1) (by omega) (by decide)
  exact ⟨t', e, fun e' => b2 ((C09_delete_exact h hs rfl e).1 e').2⟩

/-! ## Sessions -/

/-- C96: in a session whose requests cut no character in two, `text()` of every buffer is its text, and this is a text of whole
characters. -/
theorem C96_text {w : World} (h : WholeHistory w) {n : Str} {b : Buffer} (hb : w.buffers.get n = some b) {s : Bytes}
    (hs : Shows b.content s) : b.content.text = .ok s ∧ IsText s := by
  obtain ⟨hr, ht⟩ := World.whole_history h n b hb
  have hc := (shows_iff hr.wf).1 hs
  subst hc
  exact ⟨text_eq hr.wf ht.pieces, ht.isText⟩

/-- the items of a view show the texts -/
theorem whole_shows {w : World} (h : WholeHistory w) {name : Str} {item : ViewParamsItem} (hi : ShowsWhole w.buffers name item)
    (hne : ∀ b, w.buffers.get name = some b → b.content.content ≠ []) : ShowsBuffer w name item := by
  obtain ⟨h1, b, ls, hb, hls, hst, hcount, hne', each⟩ := hi
  have hf := World.texts_history (World.whole_core h) name b hb
  have hw := (reachable_ready (forward_any hf)).wf
  have hsh := shows_content hw
  refine ⟨h1, b, b.content.content, hb, hsh, ?_⟩
  have hl' : b.content.lines = .ok (cleanLines b.content.content) := by
    unfold PieceTable.lines
    rw [(C96_text h hb hsh).1, except_bind_ok, strLines_clean]; rfl
  rw [hl'] at hls; cases hls
  have hcnt := (C08_lines (forward_steady hf) hsh (hne b hb)).1
  rw [hcnt] at hcount
  injection hcount with hcount
  exact ⟨hst, hcount.symm, hne', each⟩

/-- C96: in such a session, what a client is shown of its view are the lines of the texts themselves, whatever their
characters. -/
theorem C96_shown {w : World} (h : WholeHistory w) {env : Env} {c : Nat} {r : Nat × List ViewParamsItem}
    (hv : w.viewParams env c = .ok r) (hne : ∀ n b, w.buffers.get n = some b → ¬ Shows b.content []) :
    ∃ ctx, w.clients.map.get c = some ctx ∧ List.Forall₂ (ShowsBuffer w) ctx.view.buffers r.2 := by
  obtain ⟨_, ctx, h4, _, h5⟩ := C67_client (World.whole_core h) hv
  exact ⟨ctx, h4, forall2_mono h5 fun _ _ _ hx => whole_shows h hx fun b hb e => hne _ b hb
    ((shows_iff (World.whole_history h _ b hb).1.wf).2 e)⟩

/-- C96, exactly: in such a session deleting a selection that is not empty leaves `text()` the text just when what is deleted
begins and ends between two characters. -/
theorem C96_delete_exact {w : World} (h : WholeHistory w) {env : Env} (hseg : IsSegmentation env.seg)
    (hf : ∀ i, (env.stale i).follows = true) {n : Str} {b : Buffer} (hb : w.buffers.get n = some b) {s : Bytes}
    (hs : Shows b.content s) {sel : Selection} (h1 : sel.anchor < s.length) (h2 : sel.cursor < s.length) {a e : Nat}
    (hsp : Spans env.seg s sel a e) (hae : a < e) {b' : Buffer} {d : List Bytes}
    (hd : World.deleteInBuffer env b [sel] = .ok (b', d)) :
    Shows b'.content (without s a e) ∧
      (b'.content.text = .ok (without s a e) ↔ IsBoundary s a ∧ IsBoundary s e) := by
  have hfw := World.texts_history (World.whole_core h) n b hb
  have hwh := World.whole_history h n b hb
  have hc := (shows_iff hwh.1.wf).1 hs
  subst hc
  have hr := (C87_selected (forward_steady hfw) hs hseg h1 h2 a e).2 hsp
  have hel : e ≤ b.content.content.length := by
    rcases hsp.2 with ⟨_, h⟩ | ⟨_, _, _, _, _, _, _, _, h⟩ <;> omega
  unfold World.deleteInBuffer World.deleteOne at hd
  simp only [List.foldlM_cons, List.foldlM_nil] at hd
  rw [hr] at hd
  simp only [except_bind_ok] at hd
  have ht : b.content.textRange a e = .ok (some (utf8Lossy (slice b.content.content a e))) := by
    unfold textRange
    rw [range_eq hwh.1.wf (by omega), if_pos (by omega)]
    rfl
  rw [ht] at hd
  simp only [except_bind_ok] at hd
  unfold World.deleteRange at hd
  rw [if_neg (by omega)] at hd
  obtain ⟨⟨t, del⟩, h3, hd⟩ := bind_inv hd
  obtain ⟨x, h4, h3⟩ := bind_inv h3
  obtain ⟨t1, h5, h4⟩ := bind_inv h4
  cases h4
  cases h3
  cases hd
  obtain ⟨k1, k2, k3⟩ := delete_exact hwh.1 hwh.2 (hf 0) h5
  rw [show a + (e - a) = e by omega] at k3
  have hcut : cut b.content.content a (e - a) = b.content.content.take a ++ b.content.content.drop e := by
    unfold cut
    rw [show a + (e - a) = e by omega]
  show Shows (if t.isEmpty then t.append [NL] else t) _ ∧ ((if t.isEmpty then t.append [NL] else t).text = _ ↔ _)
  by_cases hall : a = 0 ∧ e = b.content.content.length
  · have hnil : t.content = [] := by rw [k1, hcut, hall.1, hall.2]; simp
    have he : t.isEmpty = true := (PieceTable.isEmpty_iff k2).2 hnil
    have hwo : without b.content.content a e = [NL] := if_pos hall
    rw [if_pos he, hwo]
    have hb1 : IsBoundary b.content.content a := by rw [hall.1]; exact boundary_zero hwh.2.isText
    have hb2 : IsBoundary b.content.content e := isBoundary_end hwh.2.isText (by omega)
    have hwt := World.whole_delete hwh (hf 0) hb1 (by rw [show a + (e - a) = e by omega]; exact hb2) h5
    have hwa := World.whole_append1 hwt (x := [NL]) (by simp) ⟨['\n'], by decide⟩
    have hac : (t.append [NL]).content = [NL] := by
      rw [(append_eq k2 (x := [NL]) (by simp)).1.content, hnil]
      rfl
    refine ⟨(shows_iff hwa.1.wf).2 hac, iff_of_true ?_ ⟨hb1, hb2⟩⟩
    have := text_eq hwa.1.wf hwa.2.pieces
    rwa [hac] at this
  · have hwo : without b.content.content a e = b.content.content.take a ++ b.content.content.drop e := if_neg hall
    have hne : t.isEmpty = false := by
      cases hx : t.isEmpty with
      | false => rfl
      | true =>
        have := (PieceTable.isEmpty_iff k2).1 hx
        rw [k1, hcut] at this
        have := congrArg List.length this
        rw [List.length_append, List.length_take, List.length_drop, List.length_nil] at this
        have hla : a < b.content.content.length := by omega
        omega
    rw [if_neg (by rw [hne]; simp), hwo, ← hcut, ← k1]
    exact ⟨shows_content k2, k3⟩

/-! ## Requests that cut nothing -/

/-- The grapheme clusters of a text are texts: they are made of whole characters. -/
def ClustersWhole (seg : Segmentation) : Prop := ∀ l, IsText l → ∀ g ∈ seg l, IsText g

/-- a newline begins and ends between characters -/
theorem boundary_newline {s : Bytes} (h : IsText s) {k : Nat} (hk : s[k]? = some NL) : IsBoundary s k ∧ IsBoundary s (k + 1) := by
  have hlt : k < s.length := by
    rcases Nat.lt_or_ge k s.length with h | h
    · exact h
    · rw [List.getElem?_eq_none h] at hk; cases hk
  have hb : IsBoundary s k := (isCharBoundary_iff h (by omega)).1 (by
    unfold isCharBoundary
    rw [hk]
    simp [NL, isCont])
  refine ⟨hb, isBoundary_of_take h ?_⟩
  rw [List.take_add_one, hk]
  exact isText_append hb.1 ⟨['\n'], by decide⟩

/-- the lines of a text are texts -/
theorem lineAt_isText {s pre line suf : Bytes} {n : Nat} (h : IsText s) (hl : LineAt s n pre line suf) :
    IsText pre ∧ IsText line ∧ IsText suf := by
  have hp : IsText pre := by
    rcases hl.starts with e | e
    · rw [e]; exact isText_nil
    · obtain ⟨ys, rfl⟩ := List.getLast?_eq_some_iff.1 e
      have hk : s[ys.length]? = some NL := by rw [hl.split]; simp
      have := (boundary_newline h hk).2.1
      rw [hl.split] at this
      have e2 : ys.length + 1 = (ys ++ [NL]).length := by simp
      rwa [e2, List.append_assoc, List.take_left'] at this
      rfl
  have hls : IsText (line ++ suf) := isText_cancel hp (by rw [← List.append_assoc, ← hl.split]; exact h)
  rcases hl.stops with e | e
  · subst e
    rw [List.append_nil] at hls
    exact ⟨hp, hls, isText_nil⟩
  · obtain ⟨y, rfl⟩ := List.head?_eq_some_iff.1 e
    have hk : (line ++ NL :: y)[line.length]? = some NL := by simp
    have := (boundary_newline hls hk).1
    exact ⟨hp, by simpa using this.1, by simpa using this.2⟩

/-- C96: a motion goes between two characters. -/
theorem C96_lands {seg : Segmentation} (hseg : IsSegmentation seg) (hcl : ClustersWhole seg) {s : Bytes} (hs : IsText s) {n w o : Nat}
    (h : LandsOn seg s n w o) : IsBoundary s o := by
  obtain ⟨pre, line, suf, hl, _, rfl⟩ := h
  obtain ⟨h1, h2, h3⟩ := lineAt_isText hs hl
  refine isBoundary_of_take hs ?_
  have hflat : ∀ gs : List Bytes, (∀ g ∈ gs, IsText g) → IsText gs.flatten := by
    intro gs hg
    induction gs with
    | nil => exact isText_nil
    | cons g gs ih => exact isText_append (hg g (by simp)) (ih fun x hx => hg x (by simp [hx]))
  have e : s.take (pre.length + ((seg line).take (min w ((seg line).length + 1) - 1)).flatten.length) =
      pre ++ ((seg line).take (min w ((seg line).length + 1) - 1)).flatten := by
    have hline := hseg.flatten line
    have : s = pre ++ ((seg line).take (min w ((seg line).length + 1) - 1)).flatten ++
        (((seg line).drop (min w ((seg line).length + 1) - 1)).flatten ++ suf) := by
      rw [hl.split]
      conv => lhs; rw [← hline, ← List.take_append_drop (min w ((seg line).length + 1) - 1) (seg line)]
      simp only [List.flatten_append, List.append_assoc]
    conv => lhs; rw [this]
    rw [← List.length_append, List.take_left']
    simp
  rw [e]
  exact isText_append h1 (hflat _ fun g hg => hcl line h2 g (List.mem_of_mem_take hg))

/-- C96: after a motion the cursor is between two characters, and so is the anchor if it was or was not kept. -/
theorem C96_motion {t : PieceTable} (h : SteadyHistory t) {s : Bytes} (hs : Shows t s) (hst : IsText s) {seg : Segmentation}
    (hseg : IsSegmentation seg) (hcl : ClustersWhole seg) {sel sel' : Selection} (ho : sel.cursor < s.length) (h1 : s.length ≠ 1)
    {d : CursorTarget} {ext : Bool} (hm : Selection.move seg t d ext sel = .ok sel') :
    IsBoundary s sel'.cursor ∧ (ext = false ∨ IsBoundary s sel.anchor → IsBoundary s sel'.anchor) := by
  obtain ⟨n, w, o, _, hl, _, rfl⟩ := (C87_motion h hs hseg ho h1 d ext sel').1 hm
  have hb := C96_lands hseg hcl hst hl
  refine ⟨hb, fun hx => ?_⟩
  show IsBoundary s (if ext then sel.anchor else o)
  split
  · rcases hx with hx | hx
    · simp_all
    · exact hx
  · exact hb

/-- C96: deleting cuts no character in two, if the clusters are whole and the selections of the client are in the texts and begin
between two characters. -/
theorem C96_delete_keeps {w : World} (h : WholeHistory w) {env : Env} (hseg : IsSegmentation env.seg) (hcl : ClustersWhole env.seg)
    {c : Nat} (hsel : ∀ ctx m n sel b s, w.clients.map.get c = some ctx → ctx.selections.get ctx.view.key = some m →
      m.get n = some [sel] → w.buffers.get n = some b → Shows b.content s →
      sel.anchor < s.length ∧ sel.cursor < s.length ∧ IsBoundary s (min sel.anchor sel.cursor)) :
    KeepsChars env w (.deleteSelection c) := by
  intro ctx m n sel b s hc hm hn hb hs
  obtain ⟨h1, h2, h3⟩ := hsel ctx m n sel b s hc hm hn hb hs
  refine ⟨h1, h2, fun a e hsp _ => ?_⟩
  have ht := (C96_text h hb hs).2
  obtain ⟨rfl, h4⟩ := hsp
  refine ⟨h3, ?_⟩
  rcases h4 with ⟨_, rfl⟩ | ⟨_, _, _, _, _, _, _, h5, _⟩
  · exact isBoundary_end ht (Nat.le_refl _)
  · exact C96_lands hseg hcl ht h5

/-- C96: re-reading a file cuts no character in two, if the old text is ASCII, or if the change is one that is not noticed (see C12). -/
theorem C96_reload {w : World} {env : Env} {c : Nat} {name : Str}
    (h : ∀ b p f s, w.buffers.get name = some b → b.source = .file p → env.fs p = some f → Shows b.content s →
      Ascii s ∨ s = f.content ∧ s ≠ [] ∨ ∃ p l r q, Split s f.content p l r q ∧ Unnoticed p q) :
    KeepsChars env w (.edit c name false) := by
  intro b p f s ds hb hsrc hf hs hd k hk
  rcases h b p f s hb hsrc hf hs with ha | ⟨rfl, hne⟩ | ⟨p, l, r, q, h1, h2⟩
  · exact ⟨isText_ascii fun x hx => ha x (List.mem_of_mem_take hx), isText_ascii fun x hx => ha x (List.mem_of_mem_drop hx)⟩
  · exfalso
    have : DiffM.diff f.content f.content = .ok [.both f.content.length] := by
      refine DiffM.diff_early (p := f.content) (l := []) (r := []) (s := []) ?_ ⟨hne, .inl rfl⟩
      constructor <;> simp
    rw [this] at hd
    cases hd
    simp [oldCutsFrom] at hk
  · rw [DiffM.diff_early h1 h2] at hd
    cases hd
    simp [oldCutsFrom] at hk

/-! ## One cluster per character -/

/-- every character, and every maximal ill-formed part, is a cluster -/
def charsAux : Nat → Bytes → List Bytes
  | 0, _ => []
  | _, [] => []
  | fuel + 1, b :: bs => (b :: bs).take (utf8Head (b :: bs)).2 :: charsAux fuel ((b :: bs).drop (utf8Head (b :: bs)).2)

def chars : Segmentation := fun l => charsAux l.length l

theorem charsAux_flatten : ∀ {fuel : Nat} {l : Bytes}, l.length ≤ fuel → (charsAux fuel l).flatten = l
  | 0, l, h => by rw [List.length_eq_zero_iff.1 (Nat.le_zero.1 h)]; rfl
  | _ + 1, [], _ => rfl
  | fuel + 1, b :: bs, h => by
    have hp := head_pos b bs
    have hd : ((b :: bs).drop (utf8Head (b :: bs)).2).length ≤ fuel := by
      rw [List.length_drop]; simp only [List.length_cons] at h ⊢; omega
    rw [charsAux, List.flatten_cons, charsAux_flatten hd, List.take_append_drop]

theorem chars_ok : IsSegmentation chars where
  flatten l := charsAux_flatten (Nat.le_refl _)
  nonempty l g hg := by
    have key : ∀ {fuel : Nat} {l : Bytes}, g ∈ charsAux fuel l → g ≠ [] := by
      intro fuel
      induction fuel with
      | zero => intro l h; cases h
      | succ fuel ih =>
        intro l h
        cases l with
        | nil => cases h
        | cons b bs =>
          rw [charsAux] at h
          rcases List.mem_cons.1 h with rfl | h
          · have hp := head_pos b bs
            intro e
            have := congrArg List.length e
            rw [List.length_take] at this
            simp only [List.length_cons, List.length_nil] at this
            omega
          · exact ih h
    exact key hg
  ascii l ha _ := by
    have key : ∀ {fuel : Nat} {l : Bytes}, l.length ≤ fuel → Ascii l → charsAux fuel l = l.map fun b => [b] := by
      intro fuel
      induction fuel with
      | zero => intro l h _; rw [List.length_eq_zero_iff.1 (Nat.le_zero.1 h)]; rfl
      | succ fuel ih =>
        intro l h ha
        cases l with
        | nil => rfl
        | cons b bs =>
          have hb : b.toNat < 128 := ha b (by simp)
          have hn : (utf8Head (b :: bs)).2 = 1 := by
            unfold utf8Head
            simp only
            rw [if_pos hb]
          rw [charsAux, hn]
          simp only [List.take_succ_cons, List.take_zero, List.drop_succ_cons, List.drop_zero, List.map_cons]
          rw [ih (by simpa using h) fun x hx => ha x (by simp [hx])]
    exact key (Nat.le_refl _) ha

theorem chars_whole : ClustersWhole chars := by
  rintro l ⟨cs, rfl⟩ g hg
  have key : ∀ {cs : List Char} {fuel : Nat}, g ∈ charsAux fuel (encode cs) → IsText g := by
    intro cs
    induction cs with
    | nil =>
      intro fuel h
      cases fuel <;> cases h
    | cons c cs ih =>
      intro fuel h
      rw [encode_cons] at h
      cases fuel with
      | zero => cases h
      | succ fuel =>
        have hh := utf8Head_encode c (encode cs)
        cases hx : String.utf8EncodeChar c ++ encode cs with
        | nil => rw [hx] at h; cases h
        | cons b bs =>
          rw [hx] at h hh
          rw [charsAux, hh] at h
          simp only at h
          rw [← hx, List.take_left' rfl, List.drop_left' rfl] at h
          rcases List.mem_cons.1 h with rfl | h
          · exact ⟨[c], by simp [encode]⟩
          · exact ih h
  exact key hg

/-! ## Sessions that are whole, and sessions that are not -/

/-- the file `e` holds `s`, last modified at `m`; every character is a cluster -/
def envC (s : Bytes) (m : Nat) : Env := { envA with
  seg := chars
  fs := fun p => if p = [['e']] then some ⟨s, m⟩ else none }

/-- requests that certainly cut nothing -/
def keepsB (w : World) : CoreOp → Bool
  | .edit _ name false => (w.buffers.get name).isNone
  | .scratch _ _ x => utf8Lossy x == x
  | .append _ x xs => utf8Lossy (x :: xs) == x :: xs
  | .deleteSelection _ => false
  | _ => true

theorem isText_of_lossy {x : Bytes} (h : (utf8Lossy x == x) = true) : IsText x := by
  have := lossy_isText x
  rwa [eq_of_beq h] at this

theorem keepsB_ok {env : Env} {w : World} {op : CoreOp} (h : keepsB w op = true) : KeepsChars env w op := by
  cases op with
  | edit c name scratch =>
    cases scratch with
    | true => trivial
    | false =>
      intro b p f s ds hb
      have : w.buffers.get name = none := Option.isNone_iff_eq_none.1 h
      rw [hb] at this; cases this
  | scratch c n x => exact isText_of_lossy h
  | append n x xs => exact isText_of_lossy h
  | deleteSelection c => cases h
  | _ => trivial

/-- perform such requests, from the start -/
def runC (s : Bytes) (ops : List CoreOp) : R World := do
  let w ← World.start (envC s 1) [] [] []
  ops.foldlM (fun w op => if keepsB w op then op.run (envC s 1) w else .error .unwrap) w

theorem runC_whole {s : Bytes} {ops : List CoreOp} {w : World} (h : runC s ops = .ok w) : WholeHistory w := by
  unfold runC at h
  obtain ⟨w0, h0, h⟩ := bind_inv h
  refine foldlM_ind (P := WholeHistory) h (.start h0) ?_
  intro op _ a a' ha hs
  split at hs
  · rename_i hk
    exact .step ha (keepsB_ok hk) chars_ok (fun _ => rfl) hs
  · cases hs

/-- `abéc`, `d` -/
def textC : Bytes := [97, 98, 195, 169, 99, 10, 100, 10]

/-- client 1 opened the file and went to the `é` -/
def worldC : World := final (runC textC [.join 1 [], .edit 1 ['e'] false, .move 1 .right false, .move 1 .right false])

theorem worldC_whole : WholeHistory worldC := runC_whole (final_ok (r := runC textC _) (by decide +kernel))

/-- the selections of the client `c` in its view, and the text of the file as it is read and as it is -/
def seenC (w : World) (c : Nat) : Option (List (Str × List Selection)) × Option (Bytes × Option Bytes) :=
  ((w.clients.map.get c).bind fun x => x.selections.get x.view.key,
   (w.buffers.get ['e']).map fun b => (b.content.content, b.content.text.toOption))

theorem keeps_of_seen {w : World} (h : WholeHistory w) {c : Nat} {sel : Selection} {t : Bytes} {x : Option Bytes}
    (hs : seenC w c = (some [(['e'], [sel])], some (t, x))) (h1 : sel.anchor < t.length) (h2 : sel.cursor < t.length)
    (h3 : IsBoundary t (min sel.anchor sel.cursor)) {s : Bytes} {m : Nat} : KeepsChars (envC s m) w (.deleteSelection c) := by
  refine C96_delete_keeps h chars_ok chars_whole fun ctx mm n sel' b s' hc hm hn hb hsh => ?_
  simp only [seenC, hc, Option.bind_some, hm, Prod.mk.injEq, Option.some.injEq] at hs
  obtain ⟨rfl, hs⟩ := hs
  by_cases hne : n = ['e']
  · subst hne
    cases (show some [sel] = some [sel'] from hn)
    rw [hb] at hs
    simp only [Option.map_some, Option.some.injEq, Prod.mk.injEq] at hs
    have := (shows_iff (World.whole_history h _ b hb).1.wf).1 hsh
    rw [hs.1] at this
    subst this
    exact ⟨h1, h2, h3⟩
  · have : Assoc.get [(['e'], [sel])] n = none := by simp [Assoc.get, Ne.symm hne]
    rw [this] at hn; cases hn

theorem textC_isText : IsText textC := ⟨['a', 'b', 'é', 'c', '\n', 'd', '\n'], by decide⟩

/-- C96: the client may delete the `é`: the hypotheses of `C96_delete_keeps` hold, the session stays whole, and the file is shown
without it. -/
example : KeepsChars (envC textC 1) worldC (.deleteSelection 1) ∧
    ∃ w, (CoreOp.deleteSelection 1).run (envC textC 1) worldC = .ok w ∧ WholeHistory w ∧
      (seenC w 1).2 = some ([97, 98, 99, 10, 100, 10], some [97, 98, 99, 10, 100, 10]) := by
  have hs : seenC worldC 1 = (some [(['e'], [⟨2, 2, 3⟩])], some (textC, some textC)) := by decide +kernel
  have hk : KeepsChars (envC textC 1) worldC (.deleteSelection 1) :=
    keeps_of_seen worldC_whole hs (by decide) (by decide) (isBoundary_of_take textC_isText ⟨['a', 'b'], by decide⟩)
  have hr : ((CoreOp.deleteSelection 1).run (envC textC 1) worldC).toOption.isSome = true := by decide +kernel
  refine ⟨hk, _, final_ok hr, .step worldC_whole hk chars_ok (fun _ => rfl) (final_ok hr), ?_⟩
  decide +kernel

/-- two clients have opened the file; client 2 went to the `é` -/
def worldD : World := final (runC textC
  [.join 1 [], .edit 1 ['e'] false, .join 2 [], .view 2 str!"e{*}", .move 2 .right false, .move 2 .right false])

theorem worldD_whole : WholeHistory worldD := runC_whole (final_ok (r := runC textC _) (by decide +kernel))

/-- then client 1 deletes the `a` -/
def worldD1 : World := final ((CoreOp.deleteSelection 1).run (envC textC 1) worldD)

theorem worldD1_ok : (CoreOp.deleteSelection 1).run (envC textC 1) worldD = .ok worldD1 :=
  final_ok (r := (CoreOp.deleteSelection 1).run (envC textC 1) worldD) (by decide +kernel)

theorem worldD1_whole : WholeHistory worldD1 := by
  have hs : seenC worldD 1 = (some [(['e'], [⟨0, 0, 1⟩])], some (textC, some textC)) := by decide +kernel
  exact .step worldD_whole (keeps_of_seen worldD_whole hs (by decide) (by decide) (boundary_zero textC_isText)) chars_ok (fun _ => rfl)
    worldD1_ok

/-- C96, violated: client 2 went to the `é` of `abéc` and client 1 deleted the `a`; when now client 2 deletes its selection, half of
the `é` goes with the `c`: the file becomes a `b` with a broken character. -/
theorem C96_two_clients_refuted : WholeHistory worldD1 ∧
    (seenC worldD 2 = (some [(['e'], [⟨2, 2, 3⟩])], some (textC, some textC))) ∧
    ∃ w, (CoreOp.deleteSelection 2).run (envC textC 1) worldD1 = .ok w ∧ ∃ b, w.buffers.get ['e'] = some b ∧
      Shows b.content [98, 195, 10, 100, 10] ∧ ¬ IsText [98, 195, 10, 100, 10] ∧
      b.content.text = .ok [98, 0xEF, 0xBF, 0xBD, 10, 100, 10] := by
  have hr : ((CoreOp.deleteSelection 2).run (envC textC 1) worldD1).toOption.isSome = true := by decide +kernel
  have hw := final_ok hr
  refine ⟨worldD1_whole, by decide +kernel, _, hw, ?_⟩
  have hs : (seenC (final ((CoreOp.deleteSelection 2).run (envC textC 1) worldD1)) 2).2 =
      some ([98, 195, 10, 100, 10], some [98, 0xEF, 0xBF, 0xBD, 10, 100, 10]) := by decide +kernel
  unfold seenC at hs
  dsimp only at hs
  obtain ⟨b, hb, hs⟩ := Option.map_eq_some_iff.1 hs
  simp only [Prod.mk.injEq] at hs
  have hc : CoreHistory (fun _ _ => True) (final ((CoreOp.deleteSelection 2).run (envC textC 1) worldD1)) :=
    .step (World.whole_core worldD1_whole) trivial (fun _ => rfl) hw
  refine ⟨b, hb, (shows_iff (reachable_ready (forward_any (World.texts_history hc _ b hb))).wf).2 hs.1, ?_, ?_⟩
  · intro h
    have := lossy_of_isText h
    exact absurd this (by decide)
  · cases hx : b.content.text with
    | error e => rw [hx] at hs; cases hs.2
    | ok y =>
      rw [hx] at hs
      exact congrArg Except.ok (Option.some.inj hs.2)

/-- client 1 opened a file with `1é2z` -/
def worldR : World := final (runC [49, 195, 169, 50, 122, 10] [.join 1 [], .edit 1 ['e'] false])

theorem worldR_whole : WholeHistory worldR := runC_whole (final_ok (r := runC [49, 195, 169, 50, 122, 10] _) (by decide +kernel))

/-- C96, violated: the file with `1é2z` becomes `3æz`, and the client opens it again: it sees `3` and `z` with a broken character
between them. -/
theorem C96_reload_refuted : WholeHistory worldR ∧ IsText [51, 195, 166, 122, 10] ∧
    ∃ w, (CoreOp.edit 1 ['e'] false).run (envC [51, 195, 166, 122, 10] 4) worldR = .ok w ∧ ∃ b, w.buffers.get ['e'] = some b ∧
      Shows b.content [51, 195, 122, 10] ∧ ¬ IsText [51, 195, 122, 10] ∧
      b.content.text = .ok [51, 0xEF, 0xBF, 0xBD, 122, 10] := by
  have hr : ((CoreOp.edit 1 ['e'] false).run (envC [51, 195, 166, 122, 10] 4) worldR).toOption.isSome = true := by decide +kernel
  have hw := final_ok hr
  refine ⟨worldR_whole, ⟨['3', 'æ', 'z', '\n'], by decide⟩, _, hw, ?_⟩
  have hs : (seenC (final ((CoreOp.edit 1 ['e'] false).run (envC [51, 195, 166, 122, 10] 4) worldR)) 1).2 =
      some ([51, 195, 122, 10], some [51, 0xEF, 0xBF, 0xBD, 122, 10]) := by decide +kernel
  unfold seenC at hs
  dsimp only at hs
  obtain ⟨b, hb, hs⟩ := Option.map_eq_some_iff.1 hs
  simp only [Prod.mk.injEq] at hs
  have hc : CoreHistory (fun _ _ => True) (final ((CoreOp.edit 1 ['e'] false).run (envC [51, 195, 166, 122, 10] 4) worldR)) :=
    .step (World.whole_core worldR_whole) trivial (fun _ => rfl) hw
  refine ⟨b, hb, (shows_iff (reachable_ready (forward_any (World.texts_history hc _ b hb))).wf).2 hs.1, ?_, ?_⟩
  · intro h
    have := lossy_of_isText h
    exact absurd this (by decide)
  · cases hx : b.content.text with
    | error e => rw [hx] at hs; cases hs.2
    | ok y =>
      rw [hx] at hs
      exact congrArg Except.ok (Option.some.inj hs.2)

/-- `C96_reload` applies when the same file is opened again with a change that is not noticed (`1é2z` becomes `1é3`). -/
example : KeepsChars (envC [49, 195, 169, 51] 4) worldR (.edit 1 ['e'] false) := by
  refine C96_reload fun b p f s hb hsrc hf hs => .inr (.inr ?_)
  have ht : (worldR.buffers.get ['e']).map (fun b => (b.content.content, b.source)) =
      some ([49, 195, 169, 50, 122, 10], .file [['e']]) := by decide +kernel
  rw [hb] at ht
  simp only [Option.map_some, Option.some.injEq, Prod.mk.injEq] at ht
  rw [hsrc] at ht
  have hp : p = [['e']] := by injection ht.2
  subst hp
  have := (shows_iff (World.whole_history worldR_whole _ b hb).1.wf).1 hs
  rw [ht.1] at this
  subst this
  cases (show some (⟨[49, 195, 169, 51], 4⟩ : DiskFile) = some f from hf)
  exact ⟨[49, 195, 169], [50, 122, 10], [51], [], ⟨rfl, rfl, fun b x y h1 h2 => by
    injection h1 with h1
    injection h2 with h2
    rw [← h1] at h2
    exact absurd h2 (by decide), fun b x y h1 h2 => by
    have h1 := congrArg List.getLast? h1
    have h2 := congrArg List.getLast? h2
    rw [List.getLast?_concat] at h1 h2
    rw [← h1] at h2
    exact absurd h2 (by decide)⟩, by decide, .inl rfl⟩

end Ced.Props
