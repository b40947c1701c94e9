import Verif.Model.CsvText
import Verif.Spec.CsvText
import Verif.Props.Csv
/- The CSV reader on characters instead of bytes, and that the two agree on UTF-8 text. -/
namespace Atsc

/-- The reader's state on characters. -/
structure ChTok where
  mode : CsvMode
  fld : List Char
  row : Row

def chEol (c : Char) : Bool := c = '\n' ∨ c = '\r'

def ChTok.init : ChTok := ⟨.record, [], []⟩

def ChTok.plain (t : ChTok) (c : Char) : ChTok × List Row :=
  if c = ',' then (⟨.field, [], t.row ++ [t.fld]⟩, [])
  else if chEol c then (.init, [t.row ++ [t.fld]])
  else (⟨.bare, t.fld ++ [c], t.row⟩, [])

def ChTok.step (t : ChTok) (c : Char) : ChTok × List Row :=
  match t.mode with
  | .record => if chEol c then (t, []) else if c = '"' then (⟨.quoted, [], t.row⟩, []) else t.plain c
  | .field => if c = '"' then (⟨.quoted, [], t.row⟩, []) else t.plain c
  | .bare => t.plain c
  | .quoted => if c = '"' then (⟨.quote, t.fld, t.row⟩, []) else (⟨.quoted, t.fld ++ [c], t.row⟩, [])
  | .quote => if c = '"' then (⟨.quoted, t.fld ++ [c], t.row⟩, []) else t.plain c

def ChTok.final (t : ChTok) : List Row := if t.mode = .record then [] else [t.row ++ [t.fld]]

def chTokens (t : ChTok) : List Char → List Row
  | [] => t.final
  | c :: cs => (t.step c).2 ++ chTokens (t.step c).1 cs

theorem tok_bare : ∀ (f g : List Char) (row : Row) (rest : List Char), ',' ∉ f → '\n' ∉ f → '\r' ∉ f →
    chTokens ⟨.bare, g, row⟩ (f ++ rest) = chTokens ⟨.bare, g ++ f, row⟩ rest := by
  intro f
  induction f with
  | nil => intro g row rest _ _ _; simp
  | cons c f ih =>
    intro g row rest h1 h2 h3
    simp only [List.mem_cons, not_or] at h1 h2 h3
    have he : chEol c = false := by unfold chEol; simp [Ne.symm h2.1, Ne.symm h3.1]
    have hs : ChTok.step ⟨.bare, g, row⟩ c = (⟨.bare, g ++ [c], row⟩, []) := by
      unfold ChTok.step ChTok.plain
      simp [he, Ne.symm h1.1]
    rw [List.cons_append, chTokens, hs, ih _ _ _ h1.2 h2.2 h3.2]
    simp

theorem tok_quoted : ∀ (f g : List Char) (row : Row) (rest : List Char),
    chTokens ⟨.quoted, g, row⟩ ((f.flatMap fun c => if c = '"' then ['"', '"'] else [c]) ++ '"' :: rest) =
      chTokens ⟨.quote, g ++ f, row⟩ rest := by
  intro f
  induction f with
  | nil => intro g row rest; simp [chTokens, ChTok.step]
  | cons c f ih =>
    intro g row rest
    by_cases hc : c = '"'
    · subst hc
      have := ih (g ++ ['"']) row rest
      simpa [chTokens, ChTok.step] using this
    · have := ih (g ++ [c]) row rest
      simpa [chTokens, ChTok.step, hc] using this

/-- After a field: the field is complete in the state, a delimiter or a line end may follow. -/
structure Ready (m : CsvMode) (t : ChTok) (row : Row) (f s : List Char) : Prop where
  fld : t.fld = f
  row : t.row = row
  mode : t.mode ≠ .quoted
  empty : t.mode = .record → m = .record ∧ s = []

theorem tok_field {f s : List Char} (h : WrittenField f s) (m : CsvMode) (hm : m = .record ∨ m = .field) (row : Row) :
    ∃ t : ChTok, Ready m t row f s ∧ ∀ rest, chTokens ⟨m, [], row⟩ (s ++ rest) = chTokens t rest := by
  cases h with
  | quoted =>
    refine ⟨⟨.quote, f, row⟩, ⟨rfl, rfl, by simp, by simp⟩, fun rest => ?_⟩
    have := tok_quoted f [] row rest
    rw [List.nil_append] at this
    rw [← this]
    rcases hm with rfl | rfl <;> simp [quotedField, chTokens, ChTok.step, chEol]
  | bare h0 h1 h2 h3 =>
    cases f with
    | nil => exact ⟨⟨m, [], row⟩, ⟨rfl, rfl, by rcases hm with rfl | rfl <;> simp, fun e => ⟨e, rfl⟩⟩, fun rest => rfl⟩
    | cons c f =>
      refine ⟨⟨.bare, c :: f, row⟩, ⟨rfl, rfl, by simp, by simp⟩, fun rest => ?_⟩
      simp only [List.mem_cons, not_or] at h1 h2 h3
      have he : chEol c = false := by unfold chEol; simp [Ne.symm h2.1, Ne.symm h3.1]
      have hq : c ≠ '"' := by simpa using h0
      have hs : ChTok.step ⟨m, [], row⟩ c = (⟨.bare, [c], row⟩, []) := by
        unfold ChTok.step ChTok.plain
        rcases hm with rfl | rfl <;> simp [he, hq, Ne.symm h1.1]
      rw [List.cons_append, chTokens, hs, List.nil_append, tok_bare _ _ _ _ h1.2 h2.2 h3.2]
      rfl

theorem ready_comma {m0 : CsvMode} {t : ChTok} {row : Row} {f s : List Char} (h : Ready m0 t row f s) (rest : List Char) :
    chTokens t (',' :: rest) = chTokens ⟨.field, [], row ++ [f]⟩ rest := by
  obtain ⟨m, fl, r⟩ := t
  obtain ⟨rfl, rfl, hm, _⟩ := h
  dsimp only at *
  cases m <;> simp_all [chTokens, ChTok.step, ChTok.plain, chEol]

theorem ready_eol {m0 : CsvMode} {t : ChTok} {row : Row} {f s : List Char} (h : Ready m0 t row f s) (hs : s ≠ []) {c : Char} (hc : c = '\n' ∨ c = '\r')
    (rest : List Char) : chTokens t (c :: rest) = (row ++ [f]) :: chTokens .init rest := by
  obtain ⟨m, fl, r⟩ := t
  obtain ⟨rfl, rfl, hm, hr⟩ := h
  dsimp only at *
  have hr : m ≠ .record := fun e => hs (hr e).2
  rcases hc with rfl | rfl <;> cases m <;> simp_all [chTokens, ChTok.step, ChTok.plain, chEol]

theorem ready_end {m0 : CsvMode} {t : ChTok} {row : Row} {f s : List Char} (h : Ready m0 t row f s) (hs : s ≠ []) : chTokens t [] = [row ++ [f]] := by
  rw [chTokens]
  unfold ChTok.final
  rw [if_neg fun e => hs (h.empty e).2, h.fld, h.row]

theorem tok_row {r : Row} {s : List Char} (h : WrittenRow r s) : ∀ (m : CsvMode) (_ : m = .record ∨ m = .field) (row : Row),
    ∃ (t : ChTok) (row' : Row) (f : List Char), Ready m t row' f s ∧ row' ++ [f] = row ++ r ∧ ∀ rest, chTokens ⟨m, [], row⟩ (s ++ rest) = chTokens t rest := by
  induction h with
  | one hf =>
    intro m hm row
    obtain ⟨t, h1, h2⟩ := tok_field hf m hm row
    exact ⟨t, row, _, h1, rfl, h2⟩
  | @cons f s r u hf _ ih =>
    intro m hm row
    obtain ⟨t, h1, h2⟩ := tok_field hf m hm row
    obtain ⟨t', row', f', i1, i2, i3⟩ := ih .field (.inr rfl) (row ++ [f])
    refine ⟨t', row', f', ⟨i1.fld, i1.row, i1.mode, fun e => ?_⟩, by rw [i2]; simp, fun rest => ?_⟩
    · exact absurd (i1.empty e).1 (by simp)
    · rw [List.append_assoc, h2, List.cons_append, ready_comma h1, i3]

/-- Every CSV text is read as its rows: whichever way fields are quoted, lines ended, and blank lines put between. -/
theorem ch_reads {rows : List Row} {text : List Char} (h : CsvText rows text) : chTokens .init text = rows := by
  induction h with
  | nil => rfl
  | @blank rs t c hc _ ih =>
    rw [chTokens]
    have : ChTok.step .init c = (.init, []) := by rcases hc with rfl | rfl <;> rfl
    rw [this]; exact ih
  | @last r s hr hs =>
    obtain ⟨t, row', f, h1, h2, h3⟩ := tok_row hr .record (.inl rfl) []
    have := h3 []
    rw [List.append_nil] at this
    show chTokens ⟨.record, [], []⟩ s = _
    rw [this, ready_end h1 hs, h2]; rfl
  | @row r s c rs t hr hs hc _ ih =>
    obtain ⟨u, row', f, h1, h2, h3⟩ := tok_row hr .record (.inl rfl) []
    show chTokens ⟨.record, [], []⟩ (s ++ c :: t) = _
    rw [h3, ready_eol h1 hs hc, h2, ih]; rfl

/-! ### Bytes -/

/-- The state on bytes that belongs to one on characters. -/
def ChTok.bytes (t : ChTok) : CsvTok := ⟨t.mode, textBytes t.fld, rowBytes t.row⟩

theorem textBytes_nil : textBytes [] = [] := rfl

theorem rowBytes_append (a b : Row) : rowBytes (a ++ b) = rowBytes a ++ rowBytes b := by unfold rowBytes; rw [List.map_append]

theorem rowBytes_one (f : List Char) : rowBytes [f] = [textBytes f] := rfl

theorem ascii_eq {c d : Char} (hc : c.toNat < 128) (hd : d.toNat < 128) : UInt8.ofNat c.toNat = UInt8.ofNat d.toNat ↔ c = d := by
  constructor
  · intro h
    rw [← UInt8.toNat_inj, u8_of (by omega), u8_of (by omega)] at h
    exact Char.toNat_inj.1 h
  · rintro rfl; rfl

theorem textBytes_one {c : Char} (h : c.toNat < 128) : textBytes [c] = [UInt8.ofNat c.toNat] := by
  rw [textBytes_cons, enc_ascii h, textBytes_nil, List.append_nil]

theorem step_ascii (t : ChTok) {c : Char} (h : c.toNat < 128) :
    t.bytes.step (UInt8.ofNat c.toNat) = ((t.step c).1.bytes, (t.step c).2.map rowBytes) := by
  have e1 : (UInt8.ofNat c.toNat = 0x2C) ↔ c = ',' := ascii_eq h (d := ',') (by decide)
  have e2 : (UInt8.ofNat c.toNat = 0x22) ↔ c = '"' := ascii_eq h (d := '"') (by decide)
  have e3 : (UInt8.ofNat c.toNat = 0x0A) ↔ c = '\n' := ascii_eq h (d := '\n') (by decide)
  have e4 : (UInt8.ofNat c.toNat = 0x0D) ↔ c = '\r' := ascii_eq h (d := '\r') (by decide)
  have e5 : isEol (UInt8.ofNat c.toNat) = chEol c := by unfold isEol chEol; simp only [e3, e4]
  obtain ⟨m, f, r⟩ := t
  have hp : CsvTok.plain ⟨m, textBytes f, rowBytes r⟩ (UInt8.ofNat c.toNat) =
      ((ChTok.plain ⟨m, f, r⟩ c).1.bytes, (ChTok.plain ⟨m, f, r⟩ c).2.map rowBytes) := by
    unfold CsvTok.plain ChTok.plain
    simp only [e1, e5]
    split
    · simp [ChTok.bytes, rowBytes_append, rowBytes_one, textBytes_nil]
    · split
      · simp [ChTok.bytes, rowBytes_append, rowBytes_one, textBytes_nil, ChTok.init, CsvTok.init, rowBytes]
        rfl
      · simp [ChTok.bytes, textBytes_append, textBytes_one h]
  unfold CsvTok.step ChTok.step
  cases m <;> simp only [ChTok.bytes, e2, e5, hp]
  all_goals (try split)
  all_goals (try split)
  all_goals simp [ChTok.bytes, textBytes_append, textBytes_one h, textBytes_nil]

theorem step_high (t : CsvTok) {b : UInt8} (h : 128 ≤ b.toNat) :
    t.step b = (⟨if t.mode = .quoted then .quoted else .bare, t.fld ++ [b], t.row⟩, []) := by
  have n1 : b ≠ 0x2C := by rintro rfl; exact absurd h (by decide)
  have n2 : b ≠ 0x22 := by rintro rfl; exact absurd h (by decide)
  have n3 : b ≠ 0x0A := by rintro rfl; exact absurd h (by decide)
  have n4 : b ≠ 0x0D := by rintro rfl; exact absurd h (by decide)
  have n5 : isEol b = false := by unfold isEol; simp [n3, n4]
  obtain ⟨m, f, r⟩ := t
  unfold CsvTok.step CsvTok.plain
  cases m <;> simp [n1, n2, n5]

theorem tokens_high : ∀ (bs : Bytes) (t : CsvTok) (rest : Bytes), (∀ b ∈ bs, 128 ≤ b.toNat) → bs ≠ [] →
    csvTokens t (bs ++ rest) = csvTokens ⟨if t.mode = .quoted then .quoted else .bare, t.fld ++ bs, t.row⟩ rest
  | [], _, _, _, h => absurd rfl h
  | [b], t, rest, h, _ => by
    rw [List.singleton_append, csvTokens, step_high t (h b (by simp))]; rfl
  | b :: b' :: bs, t, rest, h, _ => by
    rw [List.cons_append, csvTokens, step_high t (h b (by simp)), List.nil_append, tokens_high (b' :: bs) _ rest (fun x hx => h x (by simp [hx])) (by simp)]
    dsimp only
    rw [List.append_assoc]
    have : (if (if t.mode = CsvMode.quoted then CsvMode.quoted else CsvMode.bare) = CsvMode.quoted then CsvMode.quoted else CsvMode.bare) =
        if t.mode = CsvMode.quoted then CsvMode.quoted else CsvMode.bare := by
      cases t.mode <;> rfl
    rw [this]; rfl

theorem chStep_high (t : ChTok) {c : Char} (h : 128 ≤ c.toNat) :
    t.step c = (⟨if t.mode = .quoted then .quoted else .bare, t.fld ++ [c], t.row⟩, []) := by
  have n1 : c ≠ ',' := by rintro rfl; exact absurd h (by decide)
  have n2 : c ≠ '"' := by rintro rfl; exact absurd h (by decide)
  have n3 : c ≠ '\n' := by rintro rfl; exact absurd h (by decide)
  have n4 : c ≠ '\r' := by rintro rfl; exact absurd h (by decide)
  have n5 : chEol c = false := by unfold chEol; simp [n3, n4]
  obtain ⟨m, f, r⟩ := t
  unfold ChTok.step ChTok.plain
  cases m <;> simp [n1, n2, n5]

/-- On UTF-8 text splitting the bytes is splitting the characters. -/
theorem tokens_text : ∀ (cs : List Char) (t : ChTok), csvTokens t.bytes (textBytes cs) = (chTokens t cs).map rowBytes
  | [], t => by
    rw [textBytes_nil, csvTokens, chTokens]
    unfold CsvTok.final ChTok.final
    show (if t.mode = .record then _ else _) = _
    split
    · rfl
    · rw [List.map_singleton, rowBytes_append, rowBytes_one]; rfl
  | c :: cs, t => by
    rw [textBytes_cons, chTokens]
    by_cases h : c.toNat < 128
    · rw [enc_ascii h, List.singleton_append, csvTokens, step_ascii t h, tokens_text cs, List.map_append]
    · have hb : ∀ b ∈ String.utf8EncodeChar c, 128 ≤ b.toNat := by
        intro b hb
        by_contra hn
        have := (enc_low hb (by omega)).2
        omega
      rw [tokens_high _ _ _ hb (enc_ne_nil c), chStep_high t (by omega), List.nil_append]
      have := tokens_text cs ⟨if t.mode = .quoted then .quoted else .bare, t.fld ++ [c], t.row⟩
      rw [← this]
      unfold ChTok.bytes
      dsimp only
      rw [textBytes_append, textBytes_cons c [], textBytes_nil, List.append_nil]

end Atsc
