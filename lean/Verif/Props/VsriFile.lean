import Verif.Model.VsriFile
import Verif.Lemmas.Utf8
import Verif.Props.VsriLookup
/- C49: the index file. -/
namespace Atsc
open Vsri

/-- Characters a number is written with. -/
def NumChar (c : Char) : Prop := c = '-' ∨ c.isDigit = true

theorem NumChar.range {c : Char} (h : NumChar c) : 45 ≤ c.toNat ∧ c.toNat ≤ 57 := by
  rcases h with rfl | h
  · decide
  · rw [Char.isDigit, Bool.and_eq_true, decide_eq_true_eq, decide_eq_true_eq, ge_iff_le, UInt32.le_iff_toNat_le, UInt32.le_iff_toNat_le] at h
    have e : c.toNat = c.val.toNat := rfl
    have e1 : ('0' : Char).val.toNat = 48 := rfl
    have e2 : ('9' : Char).val.toNat = 57 := rfl
    omega

theorem NumChar.not_space {c : Char} (h : NumChar c) : isSpaceChar c = false := by
  have := h.range
  unfold isSpaceChar
  rw [decide_eq_false_iff_not]
  omega

theorem NumChar.ne {c d : Char} (h : NumChar c) (h1 : d.isDigit = false) (h2 : d ≠ '-') : c ≠ d := by
  rintro rfl
  rcases h with h | h
  · exact h2 h
  · rw [h1] at h; cases h

theorem show_num (a : Int) : ∀ c ∈ showI32 a, NumChar c := by
  intro c hc
  unfold showI32 at hc
  split at hc
  · rcases List.mem_cons.1 hc with h | h
    · exact Or.inl h
    · exact Or.inr (Nat.isDigit_of_mem_toDigits (by decide) (by decide) h)
  · exact Or.inr (Nat.isDigit_of_mem_toDigits (by decide) (by decide) hc)

theorem show_ne_nil (a : Int) : showI32 a ≠ [] := by
  unfold showI32
  split
  · simp
  · exact Nat.toDigits_ne_nil

theorem parse_show {a : Int} (h : InI32 a) : parseI32 (showI32 a) = some a := by
  have hall : ∀ n, (Nat.toDigits 10 n).all Char.isDigit = true := fun n =>
    List.all_eq_true.2 fun c hc => Nat.isDigit_of_mem_toDigits (by decide) (by decide) hc
  have hne : ∀ n, Nat.toDigits 10 n ≠ [] := fun n => Nat.toDigits_ne_nil
  unfold showI32
  split
  · rename_i hneg
    have key : ∀ ds : List Char, parseI32 ('-' :: ds) = if ds = [] ∨ ¬ ds.all Char.isDigit then none
        else if InI32 (-1 * (Nat.ofDigitChars 10 ds 0 : Int)) then some (-1 * (Nat.ofDigitChars 10 ds 0 : Int)) else none := fun _ => rfl
    rw [key, if_neg (by simp [hall, hne]), Nat.ofDigitChars_ten_toDigits]
    have e : (-1 : Int) * ((-a).toNat : Int) = a := by omega
    rw [e, if_pos h]
  · rename_i hpos
    have e : (1 : Int) * (a.toNat : Int) = a := by omega
    obtain ⟨c, cs, hc⟩ := List.exists_cons_of_ne_nil (hne a.toNat)
    have hd : c.isDigit = true := by
      have := hall a.toNat
      rw [hc] at this
      simp only [List.all_cons, Bool.and_eq_true] at this
      exact this.1
    have h1 : c ≠ '-' := by rintro rfl; revert hd; decide
    have h2 : c ≠ '+' := by rintro rfl; revert hd; decide
    have key : parseI32 (Nat.toDigits 10 a.toNat) =
        if Nat.toDigits 10 a.toNat = [] ∨ ¬ (Nat.toDigits 10 a.toNat).all Char.isDigit then none
        else if InI32 (1 * (Nat.ofDigitChars 10 (Nat.toDigits 10 a.toNat) 0 : Int)) then
          some (1 * (Nat.ofDigitChars 10 (Nat.toDigits 10 a.toNat) 0 : Int)) else none := by
      rw [hc]
      unfold parseI32
      split
      · rename_i heq; exact absurd (List.cons.inj heq).1 h1
      · rename_i heq; exact absurd (List.cons.inj heq).1 h2
      · rfl
    rw [key, if_neg (by simp [hall, hne]), Nat.ofDigitChars_ten_toDigits, e, if_pos h]

theorem trim_show (a : Int) : trimChars (showI32 a) = showI32 a := by
  have hd : ∀ l : List Char, (∀ c ∈ l, NumChar c) → l.dropWhile isSpaceChar = l := by
    intro l hl
    cases l with
    | nil => rfl
    | cons c cs => rw [List.dropWhile_cons, (hl c (by simp)).not_space]; rfl
  unfold trimChars
  rw [hd _ (show_num a), hd _ (fun c hc => show_num a c (List.mem_reverse.1 hc)), List.reverse_reverse]

theorem parseField_show {a : Int} (h : InI32 a) : parseField (showI32 a) = .ok a := by
  unfold parseField; rw [trim_show, parse_show h]

theorem split_none {c : Char} : ∀ {a : List Char}, c ∉ a → splitAtChar c a = [a] := by
  intro a
  induction a with
  | nil => intro _; rfl
  | cons x xs ih =>
    intro h
    rw [splitAtChar, if_neg (by intro e; exact h (by simp [e])), ih (fun hx => h (by simp [hx]))]

theorem split_ne_nil (c : Char) (l : List Char) : splitAtChar c l ≠ [] := by
  cases l with
  | nil => simp [splitAtChar]
  | cons x xs =>
    rw [splitAtChar]
    split_ifs
    · simp
    · cases splitAtChar c xs <;> simp

theorem split_append {c : Char} {b : List Char} : ∀ {a : List Char}, c ∉ a → splitAtChar c (a ++ c :: b) = a :: splitAtChar c b := by
  intro a
  induction a with
  | nil => intro _; rw [List.nil_append, splitAtChar, if_pos rfl]
  | cons x xs ih =>
    intro h
    rw [List.cons_append, splitAtChar, if_neg (by intro e; exact h (by simp [e])), ih (fun hx => h (by simp [hx]))]

theorem not_mem_show {a : Int} {c : Char} (h1 : c.isDigit = false) (h2 : c ≠ '-') : c ∉ showI32 a :=
  fun h => (show_num a c h).ne h1 h2 rfl

theorem parseSeg_line {s : Seg} (h : InI32 s.m ∧ InI32 s.x0 ∧ InI32 s.y0 ∧ InI32 s.n) : parseSeg (segLine s) = .ok s := by
  unfold parseSeg segLine
  rw [split_append (not_mem_show (by decide) (by decide)), split_append (not_mem_show (by decide) (by decide)),
    split_append (not_mem_show (by decide) (by decide)), split_none (not_mem_show (by decide) (by decide))]
  simp only [List.mapM_cons, List.mapM_nil, parseField_show h.1, parseField_show h.2.1, parseField_show h.2.2.1, parseField_show h.2.2.2,
    bind, Except.bind, pure, Except.pure]

theorem segLine_chars (s : Seg) : ∀ c ∈ segLine s, NumChar c ∨ c = ',' := by
  intro c hc
  unfold segLine at hc
  simp only [List.mem_append, List.mem_cons] at hc
  rcases hc with h | h | h | h | h | h | h
  · exact Or.inl (show_num _ c h)
  · exact Or.inr h
  · exact Or.inl (show_num _ c h)
  · exact Or.inr h
  · exact Or.inl (show_num _ c h)
  · exact Or.inr h
  · exact Or.inl (show_num _ c h)

theorem not_mem_segLine {s : Seg} {c : Char} (h1 : c.isDigit = false) (h2 : c ≠ '-') (h3 : c ≠ ',') : c ∉ segLine s := by
  intro h
  rcases segLine_chars s c h with h | h
  · exact h.ne h1 h2 rfl
  · exact h3 h

theorem stripCr_id {l : List Char} (h : '\r' ∉ l) : stripCr l = l := by
  unfold stripCr
  rw [if_neg]
  intro e
  exact h (List.mem_of_getLast? e)

theorem split_segs : ∀ ss : List Seg, splitAtChar '\n' (ss.flatMap fun s => segLine s ++ ['\n']) = ss.map segLine ++ [[]] := by
  intro ss
  induction ss with
  | nil => rfl
  | cons s ss ih =>
    have e : (s :: ss).flatMap (fun s => segLine s ++ ['\n']) = segLine s ++ '\n' :: ss.flatMap (fun s => segLine s ++ ['\n']) := by
      simp [List.flatMap_cons]
    rw [e, split_append (not_mem_segLine (by decide) (by decide) (by decide)), ih]
    rfl

theorem lines_flush (v : Vsri) : fileLines (flush v) = showI32 v.minTs :: showI32 v.maxTs :: v.segs.map segLine := by
  unfold fileLines flush
  dsimp only
  rw [split_append (not_mem_show (by decide) (by decide)), split_append (not_mem_show (by decide) (by decide)), split_segs]
  have e : showI32 v.minTs :: showI32 v.maxTs :: (v.segs.map segLine ++ [[]]) = (showI32 v.minTs :: showI32 v.maxTs :: v.segs.map segLine) ++ [[]] := rfl
  rw [e, List.getLastD_concat, if_pos rfl, List.dropLast_concat, List.append_nil]
  simp only [List.map_cons, List.map_map]
  rw [stripCr_id (not_mem_show (by decide) (by decide)), stripCr_id (not_mem_show (by decide) (by decide))]
  congr 2
  apply List.map_congr_left
  intro s _
  exact stripCr_id (not_mem_segLine (by decide) (by decide) (by decide))

/-- The lines that the pieces between the line feeds make. -/
def piecesLines (ps : List (List Char)) : List (List Char) :=
  ps.dropLast.map stripCr ++ (if ps.getLastD [] = [] then [] else [ps.getLastD []])

/-- Text in front of the first piece. -/
def prepend (acc : List Char) : List (List Char) → List (List Char)
  | [] => [acc]
  | y :: ys => (acc ++ y) :: ys

theorem last_cr (acc : List Char) : (textBytes acc).getLast? = some 13 ↔ acc.getLast? = some '\r' := by
  rcases List.eq_nil_or_concat acc with rfl | ⟨l, c, rfl⟩
  · simp [textBytes]
  · rw [List.concat_eq_append, textBytes_append, List.getLast?_append_of_ne_nil _ (by rw [ne_eq, textBytes_eq_nil]; simp), List.getLast?_concat, Option.some.injEq]
    have e : textBytes [c] = String.utf8EncodeChar c := by rw [textBytes_cons]; exact List.append_nil _
    rw [e]
    constructor
    · intro h
      have := enc_low (List.mem_of_getLast? h) (by decide)
      exact Char.toNat_inj.1 this.2
    · rintro rfl; rfl

theorem strip_bytes (acc : List Char) :
    (if (textBytes acc).getLast? = some 13 then (textBytes acc).dropLast else textBytes acc) = textBytes (stripCr acc) := by
  unfold stripCr
  by_cases hc : acc.getLast? = some '\r'
  · rw [if_pos hc, if_pos ((last_cr acc).2 hc)]
    obtain ⟨l, rfl⟩ : ∃ l, acc = l ++ ['\r'] := by
      rcases List.eq_nil_or_concat acc with rfl | ⟨l, c, rfl⟩
      · cases hc
      · rw [List.concat_eq_append, List.getLast?_concat] at hc
        exact ⟨l, by rw [List.concat_eq_append, Option.some.inj hc]⟩
    rw [List.dropLast_concat, textBytes_append]
    exact List.dropLast_concat
  · rw [if_neg hc, if_neg fun h' => hc ((last_cr acc).1 h')]

theorem byteLines_skip : ∀ (pre acc bs : Bytes), (∀ b ∈ pre, b ≠ 10) → byteLines acc (pre ++ bs) = byteLines (acc ++ pre) bs := by
  intro pre
  induction pre with
  | nil => intro acc bs _; rw [List.append_nil]; rfl
  | cons b pre ih =>
    intro acc bs h
    rw [List.cons_append, byteLines, if_neg (h b (by simp)), ih _ _ fun d hd => h d (by simp [hd]), List.append_assoc]
    rfl

theorem byteLines_text : ∀ (cs acc : List Char),
    byteLines (textBytes acc) (textBytes cs) = (piecesLines (prepend acc (splitAtChar '\n' cs))).map textBytes := by
  intro cs
  induction cs with
  | nil =>
    intro acc
    show byteLines (textBytes acc) [] = (piecesLines [acc ++ []]).map textBytes
    rw [List.append_nil, byteLines]
    unfold piecesLines
    show _ = ([] ++ if acc = [] then [] else [acc]).map textBytes
    by_cases h : acc = []
    · rw [if_pos (textBytes_eq_nil.2 h), if_pos h]; rfl
    · rw [if_neg fun e => h (textBytes_eq_nil.1 e), if_neg h]; rfl
  | cons c cs ih =>
    intro acc
    rw [textBytes_cons, splitAtChar]
    by_cases h : c = '\n'
    · rw [if_pos h, h]
      show byteLines (textBytes acc) (10 :: textBytes cs) = _
      rw [byteLines, if_pos rfl, strip_bytes]
      rw [show byteLines [] (textBytes cs) = _ from ih []]
      have hne := split_ne_nil '\n' cs
      cases hs : splitAtChar '\n' cs with
      | nil => exact absurd hs hne
      | cons y ys =>
        show _ = (piecesLines ((acc ++ []) :: y :: ys)).map textBytes
        rw [List.append_nil]
        rfl
    · rw [if_neg h, byteLines_skip _ _ _ (by
        rintro b hb rfl
        exact h (Char.toNat_inj.1 (enc_low hb (by decide)).2))]
      have e : textBytes acc ++ String.utf8EncodeChar c = textBytes (acc ++ [c]) := by rw [textBytes_append, textBytes_cons]; simp [textBytes]
      rw [e, ih (acc ++ [c])]
      cases hs : splitAtChar '\n' cs with
      | nil => exact absurd hs (split_ne_nil '\n' cs)
      | cons y ys =>
        show (piecesLines ((acc ++ [c] ++ y) :: ys)).map textBytes = (piecesLines ((acc ++ c :: y) :: ys)).map textBytes
        rw [List.append_assoc]; rfl

theorem loadLines_segs : ∀ (ls : List (List Char)) (i : Nat) (v : Vsri), 3 ≤ i →
    loadLines i v (ls.map textBytes) = (do let ss ← ls.mapM parseSeg; .ok (some { v with segs := v.segs ++ ss })) := by
  intro ls
  induction ls with
  | nil => intro i v _; simp [loadLines, pure, Except.pure, bind, Except.bind]
  | cons l ls ih =>
    intro i v hi
    rw [List.map_cons, loadLines, utf8_text, List.mapM_cons]
    dsimp only
    rw [if_neg (by omega), if_neg (by omega)]
    cases parseSeg l with
    | error e => rfl
    | ok s =>
      simp only [bind, Except.bind]
      rw [ih (i + 1) _ (by omega)]
      cases ls.mapM parseSeg with
      | error e => rfl
      | ok ss => simp [bind, Except.bind, pure, Except.pure]

/-- Reading the bytes of a text is reading its characters. -/
theorem loadFile_text (cs : List Char) : loadFile (textBytes cs) = (load cs).map some := by
  unfold loadFile
  have e := byteLines_text cs []
  have e2 : piecesLines (prepend [] (splitAtChar '\n' cs)) = fileLines cs := by
    cases hs : splitAtChar '\n' cs with
    | nil => exact absurd hs (split_ne_nil '\n' cs)
    | cons y ys => unfold fileLines; rw [hs]; rfl
  rw [show byteLines [] (textBytes cs) = _ from e, e2]
  unfold load
  rcases hl : fileLines cs with _ | ⟨a, _ | ⟨b, ls⟩⟩
  · rfl
  · rw [List.map_cons, loadLines, utf8_text]
    dsimp only
    rw [if_pos rfl]
    cases parseField a <;> rfl
  · rw [List.map_cons, loadLines, utf8_text]
    dsimp only
    rw [if_pos rfl]
    cases parseField a with
    | error e => rfl
    | ok mn =>
      simp only [bind, Except.bind]
      rw [List.map_cons, loadLines, utf8_text]
      dsimp only
      rw [if_neg (by omega), if_pos rfl]
      cases parseField b with
      | error e => rfl
      | ok mx =>
        simp only [bind, Except.bind]
        rw [loadLines_segs ls _ _ (by omega)]
        cases ls.mapM parseSeg <;> rfl

theorem loadOrPanic_text (cs : List Char) : loadOrPanic (textBytes cs) = load cs := by
  unfold loadOrPanic
  rw [loadFile_text]
  cases load cs <;> rfl

/-- The fields of an index are `i32`. -/
def Vsri.Fields (v : Vsri) : Prop :=
  InI32 v.minTs ∧ InI32 v.maxTs ∧ ∀ s ∈ v.segs, InI32 s.m ∧ InI32 s.x0 ∧ InI32 s.y0 ∧ InI32 s.n

/-- C49: loading the file an index was flushed to gives the same minimum, maximum and segments. -/
theorem C49_flush_load (v : Vsri) (h : v.Fields) : load (flush v) = .ok v := by
  unfold load
  rw [lines_flush]
  dsimp only
  rw [parseField_show h.1]; simp only [bind, Except.bind]
  rw [parseField_show h.2.1]; simp only
  rw [List.mapM_map]
  have : (v.segs.mapM (parseSeg ∘ segLine)) = .ok (v.segs.map id) := mapM_ok fun s hs => parseSeg_line (h.2.2 s hs)
  rw [this, List.map_id]

/-- C49: the same for the bytes of the file. -/
theorem C49_file (v : Vsri) (h : v.Fields) : loadFile (textBytes (flush v)) = .ok (some v) := by
  rw [loadFile_text, C49_flush_load v h]; rfl

/-- C49: hence an index that was flushed and loaded again continues exactly like the original one. -/
theorem C49_continue (p : Profile) (v : Vsri) (h : v.Fields) (ys : List Int) :
    (do let w ← load (flush v); w.run p ys) = v.run p ys := by
  rw [C49_flush_load v h]; rfl

theorem Inv_fields {v : Vsri} {h : List Int} (I : Inv v h) : v.Fields := by
  refine ⟨?_, ?_, ?_⟩
  · rw [I.minTs]
    cases hh : h with
    | nil => decide
    | cons a l => have := I.hist.range a (by simp [hh]); unfold InI32; simp only [List.headD_cons]; omega
  · rw [I.maxTs]
    by_cases hne : h = []
    · rw [hne]; decide
    · have e : h.getLastD 0 = h.getLast hne := by rw [List.getLastD_eq_getLast?, List.getLast?_eq_some_getLast hne]; rfl
      have := I.hist.range _ (List.getLast_mem hne)
      unfold InI32; rw [e]; omega
  · intro s hs
    obtain ⟨g, blk, g', hg, ok⟩ := Desc_mem I.desc hs
    rw [Int.zero_add] at ok
    have hpos := ok.pos
    have hf := I.hist.few
    have hlen : h.length = g.length + (blk.length + g'.length) := by rw [hg]; simp
    have h0 := I.hist.range s.y0 (by rw [hg, ← ok.first]; simp)
    have hm : s.m < 2147483648 := by
      rcases ok.kind with ⟨k1, k2⟩ | ⟨k1, k2⟩
      · omega
      · have hb : blk[1]'k1 ∈ h := by
          have : blk[1]'k1 ∈ g ++ (blk ++ g') := by simp
          rw [hg]; exact this
        have := I.hist.range _ hb
        have e := ok.second (by omega)
        omega
    have hm0 := ok.m_nonneg
    unfold InI32
    rw [ok.x0, ok.n]
    omega

/-- C49: the indexes built from strictly increasing histories survive the round trip through a file. -/
theorem C49_reachable (p : Profile) (h : List Int) (H : StrictHistory h) (v : Vsri) (rs : List Bool) (hr : Vsri.run p .new h = .ok (v, rs)) :
    load (flush v) = .ok v :=
  C49_flush_load v (Inv_fields (run_inv H hr).1)

/-- C49 and C44 together: `get_sample_location` on the file of a day index answers like `get_sample` on the index, and `None` when there is no
file. -/
theorem C49_location (p : Profile) (h : List Int) (H : DayHistory h) (v : Vsri) (rs : List Bool) (hr : Vsri.run p .new h = .ok (v, rs)) (t : Int) :
    sampleLocation p (some (textBytes (flush v))) t = v.getSample p t ∧ sampleLocation p none t = .ok none := by
  refine ⟨?_, rfl⟩
  unfold sampleLocation
  dsimp only
  rw [C49_file v (Inv_fields (run_inv H.strict hr).1)]
  simp only [bind, Except.bind]
  split
  · rfl
  · rename_i hout
    symm
    refine (C44_lookup p h H v rs hr t).2.2 (fun s hs hsp => hout ?_)
    obtain ⟨I, -⟩ := run_inv H.strict hr
    obtain ⟨g, blk, g', hg, ok⟩ := Desc_mem I.desc hs
    have hne : h ≠ [] := by
      rintro rfl
      have := ok.pos
      have hb := (List.append_eq_nil_iff.1 (List.append_eq_nil_iff.1 hg.symm).2).1
      rw [hb] at this; simp at this
    have hlast := ok.last_le.2
    have hmem1 : s.y0 ∈ h := by rw [hg, ← ok.first]; simp
    have hmem2 : blk[blk.length - 1]'(by have := ok.pos; omega) ∈ h := by rw [hg]; simp
    have hmin : ∀ z ∈ h, v.min ≤ z := by
      intro z hz
      unfold Vsri.min
      rw [I.minTs]
      cases h with
      | nil => simp at hz
      | cons a l =>
        rcases List.mem_cons.1 hz with rfl | hz
        · exact le_refl _
        · exact le_of_lt ((List.pairwise_cons.1 H.increasing).1 z hz)
    have hmax : ∀ z ∈ h, z ≤ v.max := by
      intro z hz
      unfold Vsri.max
      have e : h.getLastD 0 = h.getLast hne := by rw [List.getLastD_eq_getLast?, List.getLast?_eq_some_getLast hne]; rfl
      rw [I.maxTs, e]
      have H2 := H.increasing
      rw [← List.dropLast_concat_getLast hne] at hz H2
      rcases List.mem_append.1 hz with hz | hz
      · exact le_of_lt ((List.pairwise_append.1 H2).2.2 z hz _ (List.mem_singleton_self _))
      · rw [List.mem_singleton.1 hz]
    have a1 := hmin _ hmem1
    have a2 := hmax _ hmem2
    unfold Seg.Spans at hsp
    omega

/-- The example of the documentation. -/
example : String.ofList (flush { minTs := 55745, maxTs := 59435, segs := [⟨15, 0, 55745, 166⟩, ⟨15, 166, 58505, 63⟩] }) =
    "55745\n59435\n15,0,55745,166\n15,166,58505,63\n" := by decide +kernel
example : load "55745\r\n 59435 \n15,0,55745,166\n15,166,+58505,63".toList =
    .ok { minTs := 55745, maxTs := 59435, segs := [⟨15, 0, 55745, 166⟩, ⟨15, 166, 58505, 63⟩] } := by decide +kernel
/-- A damaged file panics instead of returning an error. -/
example : loadFile "7\u00a0\n\u30009\r\n2,0,7,2".toUTF8.toList = .ok (some ⟨7, 9, [⟨2, 0, 7, 2⟩]⟩) := by decide +kernel
/-- A line that is not UTF-8 is an error of `load`, for which `get_sample_location` answers `None`; a line that is not a number is a panic. -/
example : loadFile [55, 10, 0xFF, 10] = .ok none ∧ sampleLocation .debug (some [55, 10, 0xFF, 10]) 7 = .ok none ∧
    sampleLocation .debug (some [55, 10, 65, 10]) 7 = .error .unwrap := by decide +kernel
example : load "55745\n59435\n15,0,55745".toList = .error .unwrap ∧ load "abc".toList = .error .unwrap := by decide +kernel

end Atsc
