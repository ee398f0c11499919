import Verif.Spec.Screen
import Verif.Proof.Screen
import Verif.Proof.Terminal

/-! # Writing on the screen -/

namespace Bcalc
open Spec

/-! ## Pieces -/

theorem pieces_short {n : Nat} {text : Str} (h : text.length ≤ n) : pieces n text = [text] := by
  rw [pieces, dif_pos (.inl h)]

theorem pieces_long {n : Nat} {text : Str} (hn : 0 < n) (h : n < text.length) :
    pieces n text = text.take n :: pieces n (text.drop n) := by
  rw [pieces, dif_neg (by omega)]

/-- How many pieces there are. -/
theorem pieces_length {n : Nat} (hn : 0 < n) : ∀ (q : Nat) (col : Nat) (text : Str), text.length = q * n + col →
    col ≤ n → (0 < col ∨ q = 0) → (pieces n text).length = q + 1 := by
  intro q
  induction q with
  | zero => intro col text h h1 _; rw [pieces_short (by omega)]; rfl
  | succ q ih =>
    intro col text h h1 h2
    have he : (q + 1) * n = q * n + n := by ring
    rw [pieces_long hn (by omega), List.length_cons, ih col _ (by simp; omega) h1 (by omega)]

/-- The pieces, one by one. -/
theorem pieces_get {n : Nat} (hn : 0 < n) : ∀ (i : Nat) (text piece : Str), (pieces n text)[i]? = some piece →
    piece = (text.drop (i * n)).take n := by
  intro i
  induction i with
  | zero =>
    intro text piece h
    rcases Nat.lt_or_ge n text.length with hl | hl
    · rw [pieces_long hn hl] at h
      simp only [List.getElem?_cons_zero, Option.some.injEq] at h
      simp [← h]
    · rw [pieces_short hl] at h
      simp only [List.getElem?_cons_zero, Option.some.injEq] at h
      rw [Nat.zero_mul, List.drop_zero, List.take_of_length_le hl, h]
  | succ i ih =>
    intro text piece h
    rcases Nat.lt_or_ge n text.length with hl | hl
    · rw [pieces_long hn hl, List.getElem?_cons_succ] at h
      rw [ih _ _ h, List.drop_drop]
      congr 2
      ring
    · rw [pieces_short hl] at h
      simp at h

/-! ## Printing -/

/-- From `s` to `s'` by writing from the row `base` on. -/
structure Wrote (s s' : Screen) (base : Nat) : Prop where
  width : s'.width = s.width
  height : s'.height = s.height
  above : s.SameAbove s' base
  top : s'.top = max s.top (s'.row + 1 - s.height)
  row : s.row ≤ s'.row

theorem Wrote.refl {s : Screen} (h : s.Ok) (base : Nat) : Wrote s s base :=
  ⟨rfl, rfl, fun _ _ _ => rfl, by have := h.below; omega, Nat.le_refl _⟩

theorem Wrote.trans {a b c : Screen} {base : Nat} (h : Wrote a b base) (h' : Wrote b c base) : Wrote a c base := by
  refine ⟨h'.width.trans h.width, h'.height.trans h.height, fun r k hr => (h'.above r k hr).trans (h.above r k hr), ?_,
    Nat.le_trans h.row h'.row⟩
  have h1 := h.top
  have h2 := h'.top
  have h3 := h'.row
  rw [h.height] at h2
  omega

theorem Wrote.mono {a b : Screen} {base base' : Nat} (h : Wrote a b base) (hb : base' ≤ base) : Wrote a b base' :=
  ⟨h.width, h.height, fun r k hr => h.above r k (by omega), h.top, h.row⟩

/-- A text has been written from the start of the row `base` on; below there is nothing. -/
structure Writing (s : Screen) (base : Nat) (text : Str) : Prop where
  ok : s.Ok
  cells : ∀ i c, c < s.width → s.cell (base + i) c = text.getD (i * s.width + c) ' '
  place : ∃ q, s.row = base + q ∧ text.length = q * s.width + s.col ∧ (0 < s.col ∨ q = 0)

theorem lineFeed_ok {s : Screen} (h : s.Ok) : s.lineFeed.Ok := by
  obtain ⟨h1, h2, h3, h4⟩ := h
  unfold Screen.lineFeed
  split
  · exact ⟨h1, by simp only; omega, by simp only; omega, h4⟩
  · exact ⟨h1, by simp only; omega, by simp only; omega, h4⟩

theorem lineFeed_same {s : Screen} (h : s.Ok) : s.lineFeed.width = s.width ∧ s.lineFeed.height = s.height ∧
    s.lineFeed.row = s.row + 1 ∧ s.lineFeed.col = s.col ∧
    s.lineFeed.top = max s.top (s.row + 1 + 1 - s.height) ∧
    ∀ r c, s.lineFeed.cell r c = s.cell r c ∨ (r = s.row + 1 ∧ s.lineFeed.cell r c = ' ') := by
  obtain ⟨h1, h2, h3, h4⟩ := h
  unfold Screen.lineFeed
  split
  · exact ⟨rfl, rfl, rfl, rfl, by simp only; omega, fun r c => .inl rfl⟩
  · refine ⟨rfl, rfl, rfl, rfl, by simp only; omega, fun r c => ?_⟩
    simp only
    split
    · exact .inr ⟨‹_›, rfl⟩
    · exact .inl rfl

theorem getD_ge {text : Str} {k : Nat} (h : text.length ≤ k) : text.getD k ' ' = ' ' := by
  rw [List.getD_eq_getElem?_getD, List.getElem?_eq_none h]; rfl

theorem getD_snoc {text : Str} {c : Char} {k : Nat} :
    (text ++ [c]).getD k ' ' = if k = text.length then c else text.getD k ' ' := by
  simp only [List.getD_eq_getElem?_getD]
  split
  · rename_i h; subst h; simp
  · rcases Nat.lt_or_ge k text.length with h | h
    · rw [List.getElem?_append_left h]
    · rw [List.getElem?_eq_none h, List.getElem?_eq_none (by simp; omega)]

/-- Cells are counted row by row. -/
theorem index_unique {w i j c k : Nat} (hc : c < w) (hk : k < w) (h : i * w + c = j * w + k) : i = j ∧ c = k := by
  rcases Nat.lt_trichotomy i j with hij | hij | hij
  · have : (i + 1) * w ≤ j * w := Nat.mul_le_mul_right w hij
    have : (i + 1) * w = i * w + w := by ring
    omega
  · subst hij; exact ⟨rfl, by omega⟩
  · have : (j + 1) * w ≤ i * w := Nat.mul_le_mul_right w hij
    have : (j + 1) * w = j * w + w := by ring
    omega

/-- A character is written. -/
theorem put_writing {s : Screen} {base : Nat} {text : Str} {ch : Char} (h : Writing s base text) (hch : ch ≠ '\n') :
    Writing (s.put ch) base (text ++ [ch]) ∧ Wrote s (s.put ch) base := by
  obtain ⟨hok, hcells, q, hrow, hlen, hcol⟩ := h
  have hin := hok.inside
  -- a character where there is room
  have room : ∀ (s1 : Screen) (q1 : Nat), s1.Ok → (∀ i c, c < s1.width → s1.cell (base + i) c = text.getD (i * s1.width + c) ' ') →
      s1.row = base + q1 → text.length = q1 * s1.width + s1.col → s1.col < s1.width →
      Writing { s1 with cell := fun r k => if r = s1.row ∧ k = s1.col then ch else s1.cell r k, col := s1.col + 1 } base
        (text ++ [ch]) := by
    intro s1 q1 hok1 hc1 hr1 hl1 hlt
    refine ⟨⟨hok1.wide, hok1.above, hok1.below, by simp only; omega⟩, ?_, q1, hr1, by simp; omega, .inl (by simp)⟩
    intro i c hc
    simp only at hc ⊢
    rw [getD_snoc, hr1]
    by_cases hi : i * s1.width + c = text.length
    · rw [if_pos hi]
      rw [hl1] at hi
      obtain ⟨rfl, rfl⟩ := index_unique hc hlt hi
      rw [if_pos ⟨rfl, rfl⟩]
    · rw [if_neg hi, if_neg, hc1 i c hc]
      rintro ⟨h1, h2⟩
      apply hi
      have : i = q1 := by omega
      rw [hl1, this, h2]
  unfold Screen.put
  rw [if_neg hch]
  by_cases hroom : s.col < s.width
  · rw [if_pos hroom]
    refine ⟨room s q hok hcells hrow hlen hroom, rfl, rfl, ?_, ?_, Nat.le_refl _⟩
    · intro r k hr
      simp only
      rw [if_neg (by omega)]
    · have := hok.below
      simp only
      omega
  · rw [if_neg hroom]
    have hfull : s.col = s.width := by omega
    obtain ⟨h1, h2, h3, h4, h5, h6⟩ := lineFeed_same hok
    have hok' := lineFeed_ok hok
    have hq : (q + 1) * s.width = q * s.width + s.width := by ring
    refine ⟨room { s.lineFeed with col := 0 } (q + 1) ⟨hok'.wide, hok'.above, hok'.below, by simp⟩ ?_ ?_ ?_ ?_, h1, h2, ?_, ?_, ?_⟩
    · intro i c hc
      simp only at hc ⊢
      rw [h1] at hc ⊢
      rcases h6 (base + i) c with h | ⟨hr, h⟩
      · rw [h, hcells i c hc]
      · rw [h, getD_ge]
        have : i = q + 1 := by omega
        rw [this]
        omega
    · simp only; rw [h3]; omega
    · simp only; rw [h1]; omega
    · simp only; rw [h1]; exact hok.wide
    · intro r k hr
      simp only
      rw [if_neg (by omega)]
      rcases h6 r k with h | ⟨h, _⟩
      · exact h
      · omega
    · simp only; rw [h5, h3]
    · simp only; rw [h3]; omega

/-- A text is written. -/
theorem print_writing {text : Str} (hn : '\n' ∉ text) : ∀ {s : Screen} {base : Nat} {before : Str}, Writing s base before →
    Writing (text.foldl Screen.put s) base (before ++ text) ∧ Wrote s (text.foldl Screen.put s) base := by
  induction text with
  | nil => intro s base before h; exact ⟨by simpa using h, .refl h.ok _⟩
  | cons c cs ih =>
    intro s base before h
    simp only [List.mem_cons, not_or] at hn
    obtain ⟨h1, h2⟩ := put_writing h (fun hc => hn.1 hc.symm)
    obtain ⟨h3, h4⟩ := ih hn.2 h1
    rw [List.append_assoc] at h3
    exact ⟨h3, h2.trans h4⟩

/-- What is written stands there in pieces. -/
theorem Writing.rows {s : Screen} {base : Nat} {text : Str} (h : Writing s base text) :
    s.RowsAre base (pieces s.width text) ∧ s.row + 1 = base + (pieces s.width text).length := by
  obtain ⟨hok, hcells, q, hrow, hlen, hcol⟩ := h
  have hw := hok.wide
  refine ⟨fun i piece hp => ?_, ?_⟩
  · have := pieces_get hw i text piece hp
    subst this
    refine ⟨by simp only [List.length_take]; omega, fun c hc => ?_⟩
    rw [hcells i c hc]
    simp only [List.getD_eq_getElem?_getD]
    rw [List.getElem?_take, if_pos hc, List.getElem?_drop]
  · rw [pieces_length hw q s.col text hlen hok.inside hcol]
    omega

theorem Writing.blank {s : Screen} {base : Nat} {text : Str} (h : Writing s base text) : s.BlankFrom (s.row + 1) := by
  obtain ⟨hok, hcells, q, hrow, hlen, hcol⟩ := h
  intro r c hr hc
  have : r = base + (q + 1 + (r - (s.row + 1))) := by omega
  rw [this, hcells _ c hc, getD_ge]
  have h1 : (q + 1 + (r - (s.row + 1))) * s.width = q * s.width + s.width + (r - (s.row + 1)) * s.width := by ring
  rw [h1]
  have := hok.inside
  omega

/-- Nothing has been written yet. -/
theorem writing_start {s : Screen} (h : s.Ok) (hc : s.col = 0) (hb : s.BlankFrom s.row) : Writing s s.row [] := by
  refine ⟨h, fun i c hc => ?_, 0, rfl, by simp [hc], .inr rfl⟩
  rw [hb _ c (by omega) hc, getD_ge (by simp)]

theorem Writing.atStart {s : Screen} {base : Nat} (h : Writing s base []) : s.row = base ∧ s.col = 0 ∧ s.BlankFrom base := by
  obtain ⟨hok, hcells, q, hrow, hlen, hcol⟩ := h
  simp only [List.length_nil] at hlen
  have hc : s.col = 0 := by omega
  have hq : q = 0 := by omega
  refine ⟨by omega, hc, fun r c hr hw => ?_⟩
  have : r = base + (r - base) := by omega
  rw [this, hcells _ c hw, getD_ge (by simp)]

theorem run_append (s : Screen) (a b : List TermOp) : s.run (a ++ b) = (s.run a).run b := List.foldl_append

theorem run_cons (s : Screen) (a : TermOp) (b : List TermOp) : s.run (a :: b) = (s.after a).run b := rfl

/-- On to the next line. -/
theorem nextLine {s : Screen} {base : Nat} {text : Str} (h : Writing s base text) (alt : Bool)
    (hf : alt = true → s.row + 1 < s.top + s.height) :
    Writing (s.run (newLineOps alt)) (s.row + 1) [] ∧ Wrote s (s.run (newLineOps alt)) (s.row + 1) := by
  have hb := h.blank
  have hok := h.ok
  cases alt with
  | true =>
    have hf := hf rfl
    have hrun : s.run (newLineOps true) = { s with col := 0, row := s.row + 1 } := by
      have : s.run (newLineOps true) = { s with col := 0, row := min (s.row + 1) (s.top + s.height - 1) } := rfl
      rw [this, Nat.min_eq_left (by omega)]
    rw [hrun]
    have hok' : Screen.Ok { s with col := 0, row := s.row + 1 } :=
      ⟨hok.wide, by have := hok.above; simp only; omega, hf, by simp⟩
    refine ⟨writing_start hok' rfl hb, rfl, rfl, fun _ _ _ => rfl, ?_, by simp⟩
    simp only
    omega
  | false =>
    have hrun : s.run (newLineOps false) = { s.lineFeed with col := 0 } := by
      have : s.run (newLineOps false) = { s.lineFeed with col := min 0 (s.lineFeed.width - 1) } := rfl
      rw [this, Nat.zero_min]
    rw [hrun]
    obtain ⟨h1, h2, h3, h4, h5, h6⟩ := lineFeed_same hok
    have hok' := lineFeed_ok hok
    have hok'' : Screen.Ok { s.lineFeed with col := 0 } := ⟨hok'.wide, hok'.above, hok'.below, by simp⟩
    refine ⟨?_, h1, h2, ?_, ?_, ?_⟩
    · rw [← h3]
      refine writing_start hok'' rfl ?_
      intro r c hr hc
      simp only at hr hc ⊢
      rw [h3] at hr
      rw [h1] at hc
      rcases h6 r c with h | ⟨_, h⟩
      · rw [h]; exact hb r c hr hc
      · exact h
    · intro r c hr
      simp only
      rcases h6 r c with h | ⟨h, _⟩
      · exact h
      · omega
    · simp only; rw [h5, h3]
    · simp only; rw [h3]; omega

theorem RowsAre.keep {s s' : Screen} {base base' : Nat} {rows : List Str} (h : s.RowsAre base rows) (hw : s'.width = s.width)
    (ha : s.SameAbove s' base') (hb : base + rows.length ≤ base') : s'.RowsAre base rows := by
  intro i text ht
  have hi := (List.getElem?_eq_some_iff.1 ht).1
  obtain ⟨h1, h2⟩ := h i text ht
  refine ⟨by rw [hw]; exact h1, fun c hc => ?_⟩
  rw [ha _ _ (by omega)]
  exact h2 c (by rw [← hw]; exact hc)

theorem RowsAre.append {s : Screen} {base : Nat} {rows rows' : List Str} (h : s.RowsAre base rows)
    (h' : s.RowsAre (base + rows.length) rows') : s.RowsAre base (rows ++ rows') := by
  intro i text ht
  rcases Nat.lt_or_ge i rows.length with hi | hi
  · rw [List.getElem?_append_left hi] at ht
    exact h i text ht
  · rw [List.getElem?_append_right hi] at ht
    have := h' _ text ht
    have he : base + rows.length + (i - rows.length) = base + i := by omega
    rw [he] at this
    exact this

/-- Texts, each on a line of its own. -/
def linesOps (alt : Bool) (texts : List Str) : List TermOp :=
  (texts.map fun text => [TermOp.print text] ++ newLineOps alt).flatten

/-- The rows of texts. -/
def textRows (width : Nat) (texts : List Str) : List Str := (texts.map (pieces width)).flatten

theorem textRows_cons (w : Nat) (t : Str) (ts : List Str) : textRows w (t :: ts) = pieces w t ++ textRows w ts := rfl

theorem lines_written (alt : Bool) : ∀ (texts : List Str) {s : Screen} {base : Nat}, (∀ t ∈ texts, '\n' ∉ t) →
    Writing s base [] → (alt = true → base + (textRows s.width texts).length < s.top + s.height) →
    Writing (s.run (linesOps alt texts)) (base + (textRows s.width texts).length) [] ∧
      (s.run (linesOps alt texts)).RowsAre base (textRows s.width texts) ∧ Wrote s (s.run (linesOps alt texts)) base := by
  intro texts
  induction texts with
  | nil =>
    intro s base _ h _
    exact ⟨h, fun i text ht => by simp [textRows] at ht, .refl h.ok _⟩
  | cons t ts ih =>
    intro s base hn h hf
    have hn1 : '\n' ∉ t := hn t (by simp)
    have hrun : s.run (linesOps alt (t :: ts)) = ((t.foldl Screen.put s).run (newLineOps alt)).run (linesOps alt ts) := by
      have : linesOps alt (t :: ts) = [TermOp.print t] ++ newLineOps alt ++ linesOps alt ts := rfl
      rw [this, run_append, run_append]
      rfl
    rw [hrun]
    obtain ⟨h1, h2⟩ := print_writing hn1 h
    rw [List.nil_append] at h1
    obtain ⟨hrows, hrow⟩ := h1.rows
    rw [h2.width] at hrows hrow
    rw [textRows_cons, List.length_append] at hf ⊢
    have h0 := h.atStart.1
    have hb := h.ok.below
    obtain ⟨h3, h4⟩ := nextLine h1 alt (fun ha => by
      have := hf ha
      rw [h2.top, h2.height]
      omega)
    rw [hrow] at h3 h4
    have hb1 := h1.ok.below
    have hw : ((t.foldl Screen.put s).run (newLineOps alt)).width = s.width := h4.width.trans h2.width
    obtain ⟨h5, h6, h7⟩ := ih (fun t' ht' => hn t' (by simp [ht'])) h3 (fun ha => by
      have := hf ha
      have e1 := h4.top
      have e2 := h2.top
      have e3 := h3.atStart.1
      rw [hw, h4.height, h2.height]
      omega)
    rw [hw] at h5 h6
    rw [Nat.add_assoc] at h5
    refine ⟨h5, ?_, (h2.trans (h4.mono (by omega))).trans (h7.mono (by omega))⟩
    refine RowsAre.append ?_ h6
    refine RowsAre.keep (base' := base + (pieces s.width t).length) hrows (by rw [h7.width, h4.width]) ?_ (by omega)
    intro r c hr
    rw [h7.above r c hr, h4.above r c hr]

end Bcalc
