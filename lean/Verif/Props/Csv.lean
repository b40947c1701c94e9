import Verif.Model.Csv
import Verif.Lemmas.Utf8
import Mathlib.Data.List.Forall2
import Mathlib.Tactic.Common
/- C52: reading a CSV file. -/
namespace Atsc

/-! ### the loop -/

theorem csvLoop_ok {parse : List Char → Option F64} {i : Nat} : ∀ {rs : List (Option Row)} {acc out : List CsvSample},
    csvLoop parse i rs acc = .ok (.ok out) ↔ ∃ vs : List F64, out = acc ++ vs.map (⟨0, ·⟩) ∧
      List.Forall₂ (fun r v => ∃ row f, r = some row ∧ row[i]? = some f ∧ parse f = some v) rs vs
  | [], acc, out => by
    rw [csvLoop]
    constructor
    · intro h
      refine ⟨[], ?_, .nil⟩
      rw [← Except.ok.inj (Except.ok.inj h)]; simp
    · rintro ⟨vs, h1, h2⟩
      cases h2
      rw [h1]; simp
  | none :: rs, acc, out => by
    rw [csvLoop]
    constructor
    · intro h; cases h
    · rintro ⟨vs, -, h2⟩
      cases h2 with
      | cons h _ => obtain ⟨row, f, h, _⟩ := h; cases h
  | some r :: rs, acc, out => by
    rw [csvLoop]
    cases hf : r[i]? with
    | none =>
      simp only
      constructor
      · intro h; cases h
      · rintro ⟨vs, -, h2⟩
        cases h2 with
        | cons h _ =>
          obtain ⟨row, f, h, h', _⟩ := h
          rw [← Option.some.inj h, hf] at h'; cases h'
    | some f =>
      simp only
      cases hp : parse f with
      | none =>
        simp only
        constructor
        · intro h; cases Except.ok.inj h
        · rintro ⟨vs, -, h2⟩
          cases h2 with
          | cons h _ =>
            obtain ⟨row, f', h, h', h''⟩ := h
            rw [← Option.some.inj h, hf] at h'
            rw [← Option.some.inj h', hp] at h''; cases h''
      | some v =>
        simp only
        rw [csvLoop_ok]
        constructor
        · rintro ⟨vs, h1, h2⟩
          exact ⟨v :: vs, by rw [h1]; simp, .cons ⟨r, f, rfl, hf, hp⟩ h2⟩
        · rintro ⟨vs, h1, h2⟩
          cases h2 with
          | cons h ht =>
            rename_i v' vs'
            obtain ⟨row, f', h, h', h''⟩ := h
            rw [← Option.some.inj h, hf] at h'
            rw [← Option.some.inj h', hp] at h''
            rw [← Option.some.inj h''] at h1
            exact ⟨vs', by rw [h1]; simp, ht⟩

theorem csvLoop_bad {parse : List Char → Option F64} {i : Nat} {r : Option Row} {post : List (Option Row)} :
    ∀ {pre : List (Option Row)} {acc : List CsvSample},
    (∀ x ∈ pre, ∃ row f v, x = some row ∧ row[i]? = some f ∧ parse f = some v) →
    ∃ acc', csvLoop parse i (pre ++ r :: post) acc = csvLoop parse i (r :: post) acc'
  | [], acc, _ => ⟨acc, rfl⟩
  | x :: pre, acc, h => by
    obtain ⟨row, f, v, h1, h2, h3⟩ := h x (by simp)
    subst h1
    rw [List.cons_append, csvLoop, h2]
    simp only [h3]
    exact csvLoop_bad (fun y hy => h y (by simp [hy]))

theorem csvLoop_parse {parse : List Char → Option F64} {i : Nat} : ∀ {rs : List (Option Row)} {acc : List CsvSample} {e : CsvError},
    csvLoop parse i rs acc = .ok (.error e) → e = .parsingValueFailed ∧ ∃ row f, some row ∈ rs ∧ row[i]? = some f ∧ parse f = none
  | [], acc, e, h => by rw [csvLoop] at h; cases Except.ok.inj h
  | none :: rs, acc, e, h => by rw [csvLoop] at h; cases h
  | some r :: rs, acc, e, h => by
    rw [csvLoop] at h
    cases hf : r[i]? with
    | none => rw [hf] at h; cases h
    | some f =>
      rw [hf] at h
      simp only at h
      cases hp : parse f with
      | none =>
        rw [hp] at h
        simp only at h
        exact ⟨(Except.error.inj (Except.ok.inj h)).symm, r, f, by simp, hf, hp⟩
      | some v =>
        rw [hp] at h
        obtain ⟨h1, row, f', h2, h3⟩ := csvLoop_parse h
        exact ⟨h1, row, f', by simp [h2], h3⟩

/-! ### C52 -/

/-- The position of the first header equal to `field`. -/
def IsFirst (headers : Row) (field : List Char) (i : Nat) : Prop := headers[i]? = some field ∧ ∀ j < i, headers[j]? ≠ some field

theorem findIdx_first {hs : Row} {fld : List Char} {i : Nat} : hs.findIdx? (· == fld) = some i ↔ IsFirst hs fld i := by
  rw [List.findIdx?_eq_some_iff_getElem]
  unfold IsFirst
  constructor
  · rintro ⟨h, h1, h2⟩
    refine ⟨by rw [List.getElem?_eq_getElem h]; simpa using h1, fun j hj => ?_⟩
    have := h2 j hj
    rw [List.getElem?_eq_getElem (by omega)]
    simpa using this
  · rintro ⟨h1, h2⟩
    obtain ⟨h, h'⟩ := List.getElem?_eq_some_iff.1 h1
    refine ⟨h, by simp [h'], fun j hj => ?_⟩
    have := h2 j hj
    rw [List.getElem?_eq_getElem (by omega)] at this
    simpa using this

theorem findIdx_none {hs : Row} {fld : List Char} : hs.findIdx? (· == fld) = none ↔ fld ∉ hs := by
  rw [List.findIdx?_eq_none_iff]
  constructor
  · intro h hm; have := h fld hm; simp at this
  · intro h x hx
    simp only [beq_eq_false_iff_ne, ne_eq]
    rintro rfl
    exact h hx

/-- Specification: the fields of a row in UTF-8. -/
def rowBytes (r : Row) : BRow := r.map fun f => f.flatMap String.utf8EncodeChar

/-- Specification: some field of the row is not UTF-8. -/
def BadText (r : BRow) : Prop := ∃ f ∈ r, ∀ cs : List Char, f ≠ cs.flatMap String.utf8EncodeChar

theorem decode_row : ∀ (b : BRow) (r : Row), b.mapM utf8Dec = some r ↔ b = rowBytes r
  | [], r => by
    rw [List.mapM_nil]
    constructor
    · intro h; rw [← Option.some.inj h]; rfl
    · intro h
      cases r with
      | nil => rfl
      | cons f r => cases h
  | f :: b, r => by
    rw [List.mapM_cons]
    cases hf : utf8Dec f with
    | none =>
      constructor
      · intro h; cases h
      · intro h
        cases r with
        | nil => cases h
        | cons g r =>
          have := (utf8_iff f g).2 (List.cons.inj h).1
          rw [hf] at this; cases this
    | some g =>
      cases hb : b.mapM utf8Dec with
      | none =>
        constructor
        · intro h; cases h
        · intro h
          cases r with
          | nil => cases h
          | cons g' r =>
            have := (decode_row b r).2 (List.cons.inj h).2
            rw [hb] at this; cases this
      | some r' =>
        show some (g :: r') = some r ↔ _
        have e1 := (utf8_iff f g).1 hf
        have e2 := (decode_row b r').1 hb
        constructor
        · intro h; rw [← Option.some.inj h, e1, e2]; rfl
        · intro h
          cases r with
          | nil => cases h
          | cons g2 r2 =>
            have h1 := (utf8_iff f g2).2 (List.cons.inj h).1
            have h2 := (decode_row b r2).2 (List.cons.inj h).2
            rw [hf] at h1; rw [hb] at h2
            rw [Option.some.inj h1, Option.some.inj h2]

theorem decode_rowBytes (r : Row) : (rowBytes r).mapM utf8Dec = some r := (decode_row _ _).2 rfl

theorem decode_bad : ∀ (b : BRow), b.mapM utf8Dec = none ↔ BadText b
  | [] => by
    constructor
    · intro h; cases h
    · rintro ⟨f, hf, _⟩; cases hf
  | f :: b => by
    rw [List.mapM_cons]
    have ih := decode_bad b
    cases hf : utf8Dec f with
    | none =>
      refine ⟨fun _ => ⟨f, by simp, fun cs h => ?_⟩, fun _ => rfl⟩
      have := (utf8_iff f cs).2 h
      rw [hf] at this; cases this
    | some g =>
      have e := (utf8_iff f g).1 hf
      cases hb : b.mapM utf8Dec with
      | none =>
        refine ⟨fun _ => ?_, fun _ => rfl⟩
        obtain ⟨x, h1, h2⟩ := ih.1 hb
        exact ⟨x, by simp [h1], h2⟩
      | some r =>
        constructor
        · intro h; cases h
        · rintro ⟨x, hx, h⟩
          rcases List.mem_cons.1 hx with rfl | hx
          · exact absurd e (h g)
          · have := ih.2 ⟨x, hx, h⟩
            rw [hb] at this; cases this

theorem rowBytes_length (r : Row) : (rowBytes r).length = r.length := by unfold rowBytes; rw [List.length_map]

theorem csvRecord_some {w : Nat} {b : BRow} {r : Row} : csvRecord w b = some r ↔ b = rowBytes r ∧ r.length = w := by
  unfold csvRecord
  split
  · rename_i h
    rw [decode_row]
    constructor
    · intro e; exact ⟨e, by rw [← rowBytes_length, ← e, h]⟩
    · exact fun e => e.1
  · rename_i h
    constructor
    · intro e; cases e
    · rintro ⟨rfl, e⟩; exact absurd ((rowBytes_length r).trans e) h

theorem csvRecord_none {w : Nat} {b : BRow} : csvRecord w b = none ↔ b.length ≠ w ∨ BadText b := by
  unfold csvRecord
  split
  · rename_i h
    rw [decode_bad]; simp [h]
  · rename_i h
    simp [h]

/-- Successful read: one sample per data row, in order, each the parsed field of the value column; all rows are UTF-8. -/
def ReadsAs (parse : List Char → Option F64) (i w : Nat) (rows : List BRow) (out : List CsvSample) : Prop :=
  List.Forall₂ (fun (b : BRow) (s : CsvSample) => ∃ r, b = rowBytes r ∧ r.length = w ∧ s.timestamp = 0 ∧ ∃ f, r[i]? = some f ∧ parse f = some s.value) rows out

theorem readsAs_iff {parse : List Char → Option F64} {i w : Nat} {rows : List BRow} {out : List CsvSample} :
    csvLoop parse i (rows.map (csvRecord w)) [] = .ok (.ok out) ↔ ReadsAs parse i w rows out := by
  rw [csvLoop_ok]
  unfold ReadsAs
  simp only [List.nil_append, List.forall₂_map_left_iff]
  constructor
  · rintro ⟨vs, rfl, h⟩
    rw [List.forall₂_map_right_iff]
    refine h.imp ?_
    rintro b v ⟨row, f, h1, h2, h3⟩
    obtain ⟨e1, e2⟩ := csvRecord_some.1 h1
    exact ⟨row, e1, e2, rfl, f, h2, h3⟩
  · intro h
    refine ⟨out.map (·.value), ?_, ?_⟩
    · rw [List.map_map]
      have : ∀ s ∈ out, s.timestamp = 0 := by
        intro s hs
        obtain ⟨n, hn, rfl⟩ := List.getElem_of_mem hs
        have hl := h.length_eq
        obtain ⟨r, _, _, h3, _⟩ := List.Forall₂.get h (i := n) (by omega) hn
        exact h3
      conv_lhs => rw [← List.map_id out]
      apply List.map_congr_left
      rintro ⟨t, v⟩ hs
      have := this _ hs
      simp only at this
      subst this; rfl
    · rw [List.forall₂_map_right_iff]
      refine h.imp ?_
      rintro b s ⟨r, h1, h2, _, f, h3, h4⟩
      exact ⟨r, f, csvRecord_some.2 ⟨h1, h2⟩, h3, h4⟩

theorem with_headers_eq (parse : List Char → Option F64) (headers : Row) (rows : List BRow) (tf vf : List Char) :
    readSamplesWithHeaders parse (rowBytes headers :: rows) tf vf =
      match headers.findIdx? (· == tf) with
      | none => .ok (.error .timestampFieldNotFound)
      | some _ =>
        match headers.findIdx? (· == vf) with
        | none => .ok (.error .valueFieldNotFound)
        | some i => csvLoop parse i (rows.map (csvRecord headers.length)) [] := by
  unfold readSamplesWithHeaders
  rw [List.headD_cons, decode_rowBytes, rowBytes_length, List.tail_cons]
  rfl

/-- **C52, success.** Reading with headers succeeds exactly when the header is UTF-8, both named columns exist, every data row is UTF-8 and has as many
fields as the header, and the field of every row in the (first) value column parses; the result is then one sample per row, in file order. -/
theorem C52_with_headers (parse : List Char → Option F64) (header : BRow) (rows : List BRow) (tf vf : List Char) (out : List CsvSample) :
    readSamplesWithHeaders parse (header :: rows) tf vf = .ok (.ok out) ↔
      ∃ names : Row, header = rowBytes names ∧ tf ∈ names ∧ ∃ i, IsFirst names vf i ∧ ReadsAs parse i names.length rows out := by
  constructor
  · intro h
    cases hd : header.mapM utf8Dec with
    | none =>
      unfold readSamplesWithHeaders at h
      rw [List.headD_cons, hd] at h
      cases Except.ok.inj h
    | some names =>
      have e := (decode_row _ _).1 hd
      subst e
      rw [with_headers_eq] at h
      refine ⟨names, rfl, ?_⟩
      cases h1 : names.findIdx? (· == tf) with
      | none => rw [h1] at h; cases Except.ok.inj h
      | some j =>
        rw [h1] at h
        have htf : tf ∈ names := List.mem_of_getElem? (findIdx_first.1 h1).1
        cases h2 : names.findIdx? (· == vf) with
        | none => rw [h2] at h; cases Except.ok.inj h
        | some i =>
          rw [h2] at h
          exact ⟨htf, i, findIdx_first.1 h2, readsAs_iff.1 h⟩
  · rintro ⟨names, rfl, htf, i, hi, h⟩
    rw [with_headers_eq]
    cases h1 : names.findIdx? (· == tf) with
    | none => exact absurd htf (findIdx_none.1 h1)
    | some j =>
      rw [findIdx_first.2 hi]
      exact readsAs_iff.2 h

/-- **C52, success without headers**: field 0 of every row, all rows as long as the first. -/
theorem C52_no_headers (parse : List Char → Option F64) (rows : List BRow) (out : List CsvSample) :
    readSamples parse rows = .ok (.ok out) ↔ ReadsAs parse 0 (rows.headD []).length rows out := by
  unfold readSamples; exact readsAs_iff

/-- The number of samples is the number of data rows. -/
theorem C52_count (parse : List Char → Option F64) (header : BRow) (rows : List BRow) (tf vf : List Char) (out : List CsvSample)
    (h : readSamplesWithHeaders parse (header :: rows) tf vf = .ok (.ok out)) : out.length = rows.length := by
  obtain ⟨_, _, _, i, _, h⟩ := (C52_with_headers parse header rows tf vf out).1 h
  exact h.length_eq.symm

/-- **C52, missing columns.** A missing time column is reported whatever the rest of the file; a missing value column when the time column exists. -/
theorem C52_missing_columns (parse : List Char → Option F64) (headers : Row) (rows : List BRow) (tf vf : List Char) :
    (tf ∉ headers → readSamplesWithHeaders parse (rowBytes headers :: rows) tf vf = .ok (.error .timestampFieldNotFound)) ∧
    (tf ∈ headers → vf ∉ headers → readSamplesWithHeaders parse (rowBytes headers :: rows) tf vf = .ok (.error .valueFieldNotFound)) := by
  rw [with_headers_eq]
  refine ⟨fun h => by rw [findIdx_none.2 h], fun h1 h2 => ?_⟩
  cases h : headers.findIdx? (· == tf) with
  | none => exact absurd h1 (findIdx_none.1 h)
  | some j => simp only; rw [findIdx_none.2 h2]

/-- **C52, bad header.** A header that is not UTF-8 is reported as an error whatever the rest of the file. -/
theorem C52_bad_header (parse : List Char → Option F64) (header : BRow) (rows : List BRow) (tf vf : List Char) (hb : BadText header) :
    readSamplesWithHeaders parse (header :: rows) tf vf = .ok (.error .unexpected) := by
  unfold readSamplesWithHeaders
  rw [List.headD_cons, (decode_bad header).2 hb]

theorem reach_row (parse : List Char → Option F64) (headers : Row) (pre : List Row) (post : List BRow) (b : BRow) (tf vf : List Char) (i : Nat)
    (htf : tf ∈ headers) (hi : IsFirst headers vf i) (hlen : ∀ x ∈ pre, x.length = headers.length)
    (hpre : ∀ x ∈ pre, ∃ g v, x[i]? = some g ∧ parse g = some v) :
    ∃ acc, readSamplesWithHeaders parse (rowBytes headers :: (pre.map rowBytes ++ b :: post)) tf vf =
      csvLoop parse i (csvRecord headers.length b :: post.map (csvRecord headers.length)) acc := by
  rw [with_headers_eq]
  cases h : headers.findIdx? (· == tf) with
  | none => exact absurd htf (findIdx_none.1 h)
  | some j =>
    simp only
    rw [findIdx_first.2 hi]
    simp only [List.map_append, List.map_cons, List.map_map]
    obtain ⟨acc, ha⟩ := csvLoop_bad (parse := parse) (i := i) (r := csvRecord headers.length b) (post := post.map (csvRecord headers.length))
      (pre := pre.map (csvRecord headers.length ∘ rowBytes)) (acc := []) (by
        intro x hx
        obtain ⟨y, hy, rfl⟩ := List.mem_map.1 hx
        obtain ⟨g, v, h1, h2⟩ := hpre y hy
        exact ⟨y, g, v, csvRecord_some.2 ⟨rfl, hlen y hy⟩, h1, h2⟩)
    exact ⟨acc, ha⟩

/-- **C52, all or nothing.** If the value of some row does not parse and every row before it is well formed and parses, the whole read fails,
whatever follows. -/
theorem C52_unparsable (parse : List Char → Option F64) (headers : Row) (pre : List Row) (post : List BRow) (r : Row) (tf vf f : List Char) (i : Nat)
    (htf : tf ∈ headers) (hi : IsFirst headers vf i) (hlen : ∀ x ∈ pre, x.length = headers.length)
    (hpre : ∀ x ∈ pre, ∃ g v, x[i]? = some g ∧ parse g = some v) (hr : r.length = headers.length) (hf : r[i]? = some f) (hp : parse f = none) :
    readSamplesWithHeaders parse (rowBytes headers :: (pre.map rowBytes ++ rowBytes r :: post)) tf vf = .ok (.error .parsingValueFailed) := by
  obtain ⟨acc, ha⟩ := reach_row parse headers pre post (rowBytes r) tf vf i htf hi hlen hpre
  rw [ha, csvRecord_some.2 ⟨rfl, hr⟩, csvLoop, hf]
  simp only [hp]

/-- A parse error is only reported when the value of some row really does not parse. -/
theorem C52_parse_error_real (parse : List Char → Option F64) (header : BRow) (rows : List BRow) (tf vf : List Char)
    (h : readSamplesWithHeaders parse (header :: rows) tf vf = .ok (.error .parsingValueFailed)) :
    ∃ names i r f, header = rowBytes names ∧ IsFirst names vf i ∧ rowBytes r ∈ rows ∧ r[i]? = some f ∧ parse f = none := by
  cases hd : header.mapM utf8Dec with
  | none =>
    unfold readSamplesWithHeaders at h
    rw [List.headD_cons, hd] at h
    cases Except.error.inj (Except.ok.inj h)
  | some headers =>
    have e := (decode_row _ _).1 hd
    subst e
    rw [with_headers_eq] at h
    cases h1 : headers.findIdx? (· == tf) with
    | none => rw [h1] at h; cases Except.error.inj (Except.ok.inj h)
    | some j =>
      rw [h1] at h
      simp only at h
      cases h2 : headers.findIdx? (· == vf) with
      | none => rw [h2] at h; cases Except.error.inj (Except.ok.inj h)
      | some i =>
        rw [h2] at h
        simp only at h
        obtain ⟨_, row, f, hm, hf, hp⟩ := csvLoop_parse h
        obtain ⟨b, hb, he⟩ := List.mem_map.1 hm
        obtain ⟨rfl, _⟩ := csvRecord_some.1 he
        exact ⟨headers, i, row, f, rfl, findIdx_first.1 h2, hb, hf, hp⟩

/-- A row with a different number of fields, or one that is not UTF-8, before any unparsable value makes the read panic instead of returning an error. -/
theorem C52_ragged_panics (parse : List Char → Option F64) (headers : Row) (pre : List Row) (post : List BRow) (r : BRow) (tf vf : List Char) (i : Nat)
    (htf : tf ∈ headers) (hi : IsFirst headers vf i) (hlen : ∀ x ∈ pre, x.length = headers.length)
    (hpre : ∀ x ∈ pre, ∃ g v, x[i]? = some g ∧ parse g = some v) (hr : r.length ≠ headers.length ∨ BadText r) :
    readSamplesWithHeaders parse (rowBytes headers :: (pre.map rowBytes ++ r :: post)) tf vf = .error .unwrap := by
  obtain ⟨acc, ha⟩ := reach_row parse headers pre post r tf vf i htf hi hlen hpre
  rw [ha, csvRecord_none.2 hr, csvLoop]

/-- On a rectangular table of text the read never panics: the only outcomes are success and the errors. -/
theorem C52_rectangular_total (parse : List Char → Option F64) (header : BRow) (rows : List Row) (tf vf : List Char)
    (hlen : ∀ x ∈ rows, x.length = header.length) : ∃ r, readSamplesWithHeaders parse (header :: rows.map rowBytes) tf vf = .ok r := by
  cases hd : header.mapM utf8Dec with
  | none => exact ⟨_, C52_bad_header parse header _ tf vf ((decode_bad header).1 hd)⟩
  | some headers =>
    have e := (decode_row _ _).1 hd
    subst e
    rw [rowBytes_length] at hlen
    rw [with_headers_eq]
    cases h1 : headers.findIdx? (· == tf) with
    | none => exact ⟨_, rfl⟩
    | some j =>
      simp only
      cases h2 : headers.findIdx? (· == vf) with
      | none => exact ⟨_, rfl⟩
      | some i =>
        simp only
        have hi : i < headers.length := (List.getElem?_eq_some_iff.1 (findIdx_first.1 h2).1).1
        have key : ∀ (rows : List Row) (acc : List CsvSample), (∀ x ∈ rows, x.length = headers.length) →
            ∃ r, csvLoop parse i ((rows.map rowBytes).map (csvRecord headers.length)) acc = .ok r := by
          intro rows
          induction rows with
          | nil => intro acc _; exact ⟨_, rfl⟩
          | cons r rows ih =>
            intro acc h
            have hr := h r (by simp)
            rw [List.map_cons, List.map_cons, csvRecord_some.2 ⟨rfl, hr⟩, csvLoop, List.getElem?_eq_getElem (by omega)]
            simp only
            cases hp : parse r[i] with
            | none => exact ⟨_, rfl⟩
            | some v => exact ih _ (fun x hx => h x (by simp [hx]))
        exact key rows [] hlen

/-- A concrete read: two columns, two rows. -/
def demoParse (cs : List Char) : Option F64 := if cs = ['7'] then some (FP.ofInt 7) else none
example : readSamplesWithHeaders demoParse [[[116], [118]], [[49], [55]], [[50], [55]]] ['t'] ['v'] =
    .ok (.ok [⟨0, FP.ofInt 7⟩, ⟨0, FP.ofInt 7⟩]) := by rfl
example : readSamplesWithHeaders demoParse [[[116], [118]], [[49], [55]], [[50], [120]]] ['t'] ['v'] = .ok (.error .parsingValueFailed) := by rfl
example : readSamplesWithHeaders demoParse [[[116], [118]], [[49]]] ['t'] ['v'] = .error .unwrap := by rfl
example : BadText [[49], [55, 0xC3]] := (decode_bad _).1 (by decide +kernel)
example : readSamplesWithHeaders demoParse [[[116], [118]], [[49], [55, 0xC3]]] ['t'] ['v'] = .error .unwrap := by rfl

end Atsc
