import Verif.Lemmas.CommandLine
import Verif.Props.Cli
/- C104: what the command lines mean. -/
namespace Atsc

/-! ### Numbers and names -/

theorem charDigit_iff (c : Char) (d : Nat) : charDigit c = some d ↔ c.isDigit = true ∧ d = c.toNat - '0'.toNat := by
  have h : c.isDigit = true ↔ '0' ≤ c ∧ c ≤ '9' := by
    unfold Char.isDigit
    rw [Bool.and_eq_true, decide_eq_true_eq, decide_eq_true_eq]
    exact Iff.rfl
  unfold charDigit
  rw [h]
  constructor
  · intro e
    split at e
    · rename_i hc; exact ⟨hc, (Option.some.inj e).symm⟩
    · cases e
  · rintro ⟨h1, rfl⟩
    rw [if_pos h1]; rfl

theorem parseDigits_iff : ∀ (ds : List Char) (acc n : Nat), parseDigits acc ds = some n ↔ (∀ c ∈ ds, c.isDigit = true) ∧ Nat.ofDigitChars 10 ds acc = n
  | [], acc, n => by
    rw [parseDigits, Nat.ofDigitChars_eq_foldl]
    simp
  | c :: ds, acc, n => by
    rw [parseDigits]
    have e : Nat.ofDigitChars 10 (c :: ds) acc = Nat.ofDigitChars 10 ds (10 * acc + (c.toNat - '0'.toNat)) := rfl
    rw [e]
    cases hd : charDigit c with
    | none =>
      constructor
      · intro h; cases h
      · rintro ⟨h, _⟩
        have := (charDigit_iff c _).2 ⟨h c (by simp), rfl⟩
        rw [hd] at this; cases this
    | some d =>
      obtain ⟨h1, rfl⟩ := (charDigit_iff c d).1 hd
      dsimp only
      rw [parseDigits_iff ds]
      constructor
      · rintro ⟨h2, h3⟩
        refine ⟨fun x hx => ?_, h3⟩
        rcases List.mem_cons.1 hx with rfl | hx
        · exact h1
        · exact h2 x hx
      · rintro ⟨h2, h3⟩
        exact ⟨fun x hx => h2 x (by simp [hx]), h3⟩

/-- The range parser accepts exactly the decimal notations of the numbers below `top`. -/
theorem parseRange_iff (top : Nat) (v : List Char) (n : Nat) : parseRange top v = some n ↔ n < top ∧ ReadsNumber v n := by
  have hfin : ∀ o : Option Nat, (match o with | some n => if n < top then some n else none | none => none) = some n ↔ n < top ∧ o = some n := by
    intro o
    cases o with
    | none => simp
    | some k =>
      dsimp only
      split
      · rename_i h
        constructor
        · intro e; obtain rfl := Option.some.inj e; exact ⟨h, rfl⟩
        · exact fun e => e.2
      · rename_i h
        constructor
        · intro e; cases e
        · rintro ⟨h1, e⟩; obtain rfl := Option.some.inj e; exact absurd h1 h
  unfold parseRange
  dsimp only
  refine (hfin _).trans ?_
  refine and_congr_right fun _ => ?_
  unfold ReadsNumber
  have hsign : ∀ c : Char, c.isDigit = true → c ≠ '+' ∧ c ≠ '-' := by
    intro c hc
    constructor <;> (rintro rfl; exact absurd hc (by decide))
  split
  · rename_i c r
    rw [parseDigits_iff]
    constructor
    · rintro ⟨h1, h2⟩; exact ⟨c :: r, by simp, h1, h2, Or.inr (Or.inl rfl)⟩
    · rintro ⟨ds, h0, h1, h2, h | h | ⟨h, _⟩⟩
      · exact absurd rfl (hsign '+' (h1 '+' (by rw [← h]; simp))).1
      · rw [← (List.cons.inj h).2] at h1 h2; exact ⟨h1, h2⟩
      · exact absurd (List.cons.inj h).1 (by decide)
  · rename_i c r
    constructor
    · intro h
      split at h
      · rename_i hz
        obtain ⟨h1, h2⟩ := (parseDigits_iff _ _ _).1 hz
        obtain rfl := Option.some.inj h
        exact ⟨c :: r, by simp, h1, h2, Or.inr (Or.inr ⟨rfl, rfl⟩)⟩
      · cases h
    · rintro ⟨ds, h0, h1, h2, h | h | ⟨h, hz⟩⟩
      · exact absurd rfl (hsign '-' (h1 '-' (by rw [← h]; simp))).2
      · exact absurd (List.cons.inj h).1 (by decide)
      · rw [← (List.cons.inj h).2] at h1 h2
        subst hz
        rw [if_pos ((parseDigits_iff _ _ _).2 ⟨h1, h2⟩)]
  · rename_i c r hp hm
    rw [parseDigits_iff]
    constructor
    · rintro ⟨h1, h2⟩; exact ⟨c :: r, by simp, h1, h2, Or.inl rfl⟩
    · rintro ⟨ds, h0, h1, h2, h | h | ⟨h, _⟩⟩
      · rw [h]; exact ⟨h1, h2⟩
      · cases ds with
        | nil => exact absurd rfl h0
        | cons d ds => exact (hp d ds (List.cons.inj h).1 (List.cons.inj h).2).elim
      · cases ds with
        | nil => exact absurd rfl h0
        | cons d ds => exact (hm d ds (List.cons.inj h).1 (List.cons.inj h).2).elim
  · constructor
    · intro h; cases h
    · rintro ⟨ds, h0, h1, h2, h | h | ⟨h, _⟩⟩
      · exact absurd h.symm h0
      · cases h
      · cases h

theorem parseCompressor_iff (v : List Char) (c : CompressorType) : parseCompressor v = some c ↔ (v, c) ∈ compressorNames := by
  unfold parseCompressor compressorNames
  constructor
  · intro h
    split_ifs at h with h1 h2 h3 h4 h5 h6 h7 <;> (obtain rfl := Option.some.inj h; subst v; simp)
  · intro h
    simp only [List.mem_cons, Prod.mk.injEq, List.not_mem_nil, or_false] at h
    rcases h with ⟨rfl, rfl⟩ | ⟨rfl, rfl⟩ | ⟨rfl, rfl⟩ | ⟨rfl, rfl⟩ | ⟨rfl, rfl⟩ | ⟨rfl, rfl⟩ | ⟨rfl, rfl⟩ <;> decide +kernel

theorem parseCsvCompressor_iff (v : List Char) (c : CompressorType) : parseCsvCompressor v = some c ↔ (v, c) ∈ compressorNames ∧ c ≠ .rle := by
  unfold parseCsvCompressor
  rw [← parseCompressor_iff]
  constructor
  · intro h
    split at h
    · cases h
    · rename_i hn
      exact ⟨h, fun e => hn (by rw [h, e])⟩
  · rintro ⟨h1, h2⟩
    rw [if_neg (by rw [h1]; exact fun e => h2 (Option.some.inj e)), h1]

theorem isSome_range (top : Nat) (v : List Char) : (parseRange (top + 1) v).isSome = true ↔ ∃ n ≤ top, ReadsNumber v n := by
  rw [Option.isSome_iff_exists]
  refine exists_congr fun n => ?_
  rw [parseRange_iff]
  exact and_congr_left fun _ => Nat.lt_succ_iff

/-! ### The tables are those of the manuals -/

theorem long_at {K : Type} (m : Manual K) (i : Nat) (hi : i < m.entries.length) {s : List Char} {k : K} (h1 : m.entries[i].long = some s)
    (h2 : m.entries[i].key = k) : ∃ e, m.Long s e ∧ e.key = k := ⟨_, ⟨List.getElem_mem hi, h1⟩, h2⟩
theorem short_at {K : Type} (m : Manual K) (i : Nat) (hi : i < m.entries.length) {n : Char} {k : K} (h1 : m.entries[i].short = some n)
    (h2 : m.entries[i].key = k) : ∃ e, m.Short n e ∧ e.key = k := ⟨_, ⟨List.getElem_mem hi, h1⟩, h2⟩

theorem atsc_described : Describes atscManual atscCmd where
  input := rfl
  long s k := by
    show atscLong s = some k ↔ _
    constructor
    · intro h
      unfold atscLong at h
      split_ifs at h <;> (obtain rfl := Option.some.inj h; subst s)
      · exact long_at atscManual 0 (by decide) rfl rfl
      · exact long_at atscManual 1 (by decide) rfl rfl
      · exact long_at atscManual 3 (by decide) rfl rfl
      · exact long_at atscManual 4 (by decide) rfl rfl
      · exact long_at atscManual 5 (by decide) rfl rfl
      · exact long_at atscManual 6 (by decide) rfl rfl
      · exact long_at atscManual 7 (by decide) rfl rfl
      · exact long_at atscManual 8 (by decide) rfl rfl
      · exact long_at atscManual 9 (by decide) rfl rfl
    · rintro ⟨e, ⟨h1, h2⟩, rfl⟩
      simp only [atscManual, List.mem_cons, List.not_mem_nil, or_false] at h1
      rcases h1 with rfl | rfl | rfl | rfl | rfl | rfl | rfl | rfl | rfl | rfl <;> first | (cases h2; done) | (obtain rfl := Option.some.inj h2; decide +kernel)
  short n k := by
    show atscShort n = some k ↔ _
    constructor
    · intro h
      unfold atscShort at h
      split_ifs at h <;> (obtain rfl := Option.some.inj h; subst n)
      · exact short_at atscManual 1 (by decide) rfl rfl
      · exact short_at atscManual 2 (by decide) rfl rfl
      · exact short_at atscManual 3 (by decide) rfl rfl
      · exact short_at atscManual 8 (by decide) rfl rfl
      · exact short_at atscManual 9 (by decide) rfl rfl
    · rintro ⟨e, ⟨h1, h2⟩, rfl⟩
      simp only [atscManual, List.mem_cons, List.not_mem_nil, or_false] at h1
      rcases h1 with rfl | rfl | rfl | rfl | rfl | rfl | rfl | rfl | rfl | rfl <;> first | (cases h2; done) | (obtain rfl := Option.some.inj h2; decide +kernel)
  takes e he := by
    simp only [atscManual, List.mem_cons, List.not_mem_nil, or_false] at he
    rcases he with rfl | rfl | rfl | rfl | rfl | rfl | rfl | rfl | rfl | rfl <;> rfl
  valid e he v := by
    simp only [atscManual, List.mem_cons, List.not_mem_nil, or_false] at he
    rcases he with rfl | rfl | rfl | rfl | rfl | rfl | rfl | rfl | rfl | rfl <;> simp only [Option.some.injEq, forall_eq', reduceCtorEq, false_imp_iff, implies_true, iff_true]
    · show (parseCompressor v).isSome = true ↔ _
      rw [Option.isSome_iff_exists]
      exact exists_congr fun c => parseCompressor_iff v c
    · exact isSome_range 50 v
    · rfl
    · exact isSome_range 6 v
    all_goals rfl
  validIn v := by
    show decide _ = true ↔ _
    simp [atscManual]
  stop e he := by
    simp only [atscManual, List.mem_cons, List.not_mem_nil, or_false] at he
    rcases he with rfl | rfl | rfl | rfl | rfl | rfl | rfl | rfl | rfl | rfl <;> rfl
  stopIn := rfl
  stopFlag e he h := by
    simp only [atscManual, List.mem_cons, List.not_mem_nil, or_false] at he
    rcases he with rfl | rfl | rfl | rfl | rfl | rfl | rfl | rfl | rfl | rfl <;> first | rfl | cases h
  names e he s hs := by
    simp only [atscManual, List.mem_cons, List.not_mem_nil, or_false] at he
    rcases he with rfl | rfl | rfl | rfl | rfl | rfl | rfl | rfl | rfl | rfl <;> first | (cases hs; done) | (obtain rfl := Option.some.inj hs; decide +kernel)
  letters e he := by
    simp only [atscManual, List.mem_cons, List.not_mem_nil, or_false] at he
    rcases he with rfl | rfl | rfl | rfl | rfl | rfl | rfl | rfl | rfl | rfl <;> decide
  fresh e he := by
    simp only [atscManual, List.mem_cons, List.not_mem_nil, or_false] at he
    rcases he with rfl | rfl | rfl | rfl | rfl | rfl | rfl | rfl | rfl | rfl <;> decide
  cover k := by
    cases k <;> simp [atscManual]
  unique e he e' he' h := by
    simp only [atscManual, List.mem_cons, List.not_mem_nil, or_false] at he he'
    rcases he with rfl | rfl | rfl | rfl | rfl | rfl | rfl | rfl | rfl | rfl <;>
      rcases he' with rfl | rfl | rfl | rfl | rfl | rfl | rfl | rfl | rfl | rfl <;> first | rfl | (cases h; done)

theorem csv_described : Describes csvManual csvCmd where
  input := rfl
  long s k := by
    show csvLong s = some k ↔ _
    constructor
    · intro h
      unfold csvLong at h
      split_ifs at h <;> (obtain rfl := Option.some.inj h; subst s)
      · exact long_at csvManual 0 (by decide) rfl rfl
      · exact long_at csvManual 2 (by decide) rfl rfl
      · exact long_at csvManual 3 (by decide) rfl rfl
      · exact long_at csvManual 4 (by decide) rfl rfl
      · exact long_at csvManual 5 (by decide) rfl rfl
      · exact long_at csvManual 6 (by decide) rfl rfl
      · exact long_at csvManual 7 (by decide) rfl rfl
      · exact long_at csvManual 8 (by decide) rfl rfl
      · exact long_at csvManual 9 (by decide) rfl rfl
      · exact long_at csvManual 10 (by decide) rfl rfl
    · rintro ⟨e, ⟨h1, h2⟩, rfl⟩
      simp only [csvManual, List.mem_cons, List.not_mem_nil, or_false] at h1
      rcases h1 with rfl | rfl | rfl | rfl | rfl | rfl | rfl | rfl | rfl | rfl | rfl <;> first | (cases h2; done) | (obtain rfl := Option.some.inj h2; decide +kernel)
  short n k := by
    show csvShort n = some k ↔ _
    constructor
    · intro h
      unfold csvShort at h
      split_ifs at h <;> (obtain rfl := Option.some.inj h; subst n)
      · exact short_at csvManual 0 (by decide) rfl rfl
      · exact short_at csvManual 1 (by decide) rfl rfl
      · exact short_at csvManual 7 (by decide) rfl rfl
      · exact short_at csvManual 8 (by decide) rfl rfl
      · exact short_at csvManual 9 (by decide) rfl rfl
      · exact short_at csvManual 10 (by decide) rfl rfl
    · rintro ⟨e, ⟨h1, h2⟩, rfl⟩
      simp only [csvManual, List.mem_cons, List.not_mem_nil, or_false] at h1
      rcases h1 with rfl | rfl | rfl | rfl | rfl | rfl | rfl | rfl | rfl | rfl | rfl <;> first | (cases h2; done) | (obtain rfl := Option.some.inj h2; decide +kernel)
  takes e he := by
    simp only [csvManual, List.mem_cons, List.not_mem_nil, or_false] at he
    rcases he with rfl | rfl | rfl | rfl | rfl | rfl | rfl | rfl | rfl | rfl | rfl <;> rfl
  valid e he v := by
    simp only [csvManual, List.mem_cons, List.not_mem_nil, or_false] at he
    rcases he with rfl | rfl | rfl | rfl | rfl | rfl | rfl | rfl | rfl | rfl | rfl <;> simp only [Option.some.injEq, forall_eq', reduceCtorEq, false_imp_iff, implies_true, iff_true]
    · show decide _ = true ↔ _
      simp
    · rfl
    · rfl
    · rfl
    · rfl
    · rfl
    · show (parseCsvCompressor v).isSome = true ↔ _
      rw [Option.isSome_iff_exists]
      exact exists_congr fun c => parseCsvCompressor_iff v c
    · exact isSome_range 50 v
    · exact isSome_range 6 v
    all_goals rfl
  validIn v := by
    show decide _ = true ↔ _
    simp [csvManual]
  stop e he := by
    simp only [csvManual, List.mem_cons, List.not_mem_nil, or_false] at he
    rcases he with rfl | rfl | rfl | rfl | rfl | rfl | rfl | rfl | rfl | rfl | rfl <;> rfl
  stopIn := rfl
  stopFlag e he h := by
    simp only [csvManual, List.mem_cons, List.not_mem_nil, or_false] at he
    rcases he with rfl | rfl | rfl | rfl | rfl | rfl | rfl | rfl | rfl | rfl | rfl <;> first | rfl | cases h
  names e he s hs := by
    simp only [csvManual, List.mem_cons, List.not_mem_nil, or_false] at he
    rcases he with rfl | rfl | rfl | rfl | rfl | rfl | rfl | rfl | rfl | rfl | rfl <;> first | (cases hs; done) | (obtain rfl := Option.some.inj hs; decide +kernel)
  letters e he := by
    simp only [csvManual, List.mem_cons, List.not_mem_nil, or_false] at he
    rcases he with rfl | rfl | rfl | rfl | rfl | rfl | rfl | rfl | rfl | rfl | rfl <;> decide
  fresh e he := by
    simp only [csvManual, List.mem_cons, List.not_mem_nil, or_false] at he
    rcases he with rfl | rfl | rfl | rfl | rfl | rfl | rfl | rfl | rfl | rfl | rfl <;> decide
  cover k := by
    cases k <;> simp [csvManual]
  unique e he e' he' h := by
    simp only [csvManual, List.mem_cons, List.not_mem_nil, or_false] at he he'
    rcases he with rfl | rfl | rfl | rfl | rfl | rfl | rfl | rfl | rfl | rfl | rfl <;>
      rcases he' with rfl | rfl | rfl | rfl | rfl | rfl | rfl | rfl | rfl | rfl | rfl <;> first | rfl | (cases h; done)

theorem wav_described : Describes wavManual wavCmd where
  input := rfl
  long s k := by
    show wavCmd.long s = some k ↔ _
    constructor
    · intro h
      dsimp only [wavCmd] at h
      split_ifs at h <;> (obtain rfl := Option.some.inj h; subst s)
      · exact long_at wavManual 0 (by decide) rfl rfl
      · exact long_at wavManual 1 (by decide) rfl rfl
      · exact long_at wavManual 2 (by decide) rfl rfl
    · rintro ⟨e, ⟨h1, h2⟩, rfl⟩
      simp only [wavManual, List.mem_cons, List.not_mem_nil, or_false] at h1
      rcases h1 with rfl | rfl | rfl <;> first | (cases h2; done) | (obtain rfl := Option.some.inj h2; decide +kernel)
  short n k := by
    show wavCmd.short n = some k ↔ _
    constructor
    · intro h
      dsimp only [wavCmd] at h
      split_ifs at h <;> (obtain rfl := Option.some.inj h; subst n)
      · exact short_at wavManual 1 (by decide) rfl rfl
      · exact short_at wavManual 2 (by decide) rfl rfl
    · rintro ⟨e, ⟨h1, h2⟩, rfl⟩
      simp only [wavManual, List.mem_cons, List.not_mem_nil, or_false] at h1
      rcases h1 with rfl | rfl | rfl <;> first | (cases h2; done) | (obtain rfl := Option.some.inj h2; decide +kernel)
  takes e he := by
    simp only [wavManual, List.mem_cons, List.not_mem_nil, or_false] at he
    rcases he with rfl | rfl | rfl <;> rfl
  valid e he v := by
    simp only [wavManual, List.mem_cons, List.not_mem_nil, or_false] at he
    rcases he with rfl | rfl | rfl <;> simp only [Option.some.injEq, forall_eq', reduceCtorEq, false_imp_iff, implies_true, iff_true]
    all_goals rfl
  validIn v := by
    show decide _ = true ↔ _
    simp [wavManual]
  stop e he := by
    simp only [wavManual, List.mem_cons, List.not_mem_nil, or_false] at he
    rcases he with rfl | rfl | rfl <;> rfl
  stopIn := rfl
  stopFlag e he h := by
    simp only [wavManual, List.mem_cons, List.not_mem_nil, or_false] at he
    rcases he with rfl | rfl | rfl <;> first | rfl | cases h
  names e he s hs := by
    simp only [wavManual, List.mem_cons, List.not_mem_nil, or_false] at he
    rcases he with rfl | rfl | rfl <;> first | (cases hs; done) | (obtain rfl := Option.some.inj hs; decide +kernel)
  letters e he := by
    simp only [wavManual, List.mem_cons, List.not_mem_nil, or_false] at he
    rcases he with rfl | rfl | rfl <;> decide
  fresh e he := by
    simp only [wavManual, List.mem_cons, List.not_mem_nil, or_false] at he
    rcases he with rfl | rfl | rfl <;> decide
  cover k := by
    cases k <;> simp [wavManual]
  unique e he e' he' h := by
    simp only [wavManual, List.mem_cons, List.not_mem_nil, or_false] at he he'
    rcases he with rfl | rfl | rfl <;>
      rcases he' with rfl | rfl | rfl <;> first | rfl | (cases h; done)

theorem readsNumber_fun {v : List Char} {n k : Nat} (h : ReadsNumber v n) (h' : ReadsNumber v k) : n = k := by
  have e := (parseRange_iff (n + k + 1) v n).2 ⟨by omega, h⟩
  have e' := (parseRange_iff (n + k + 1) v k).2 ⟨by omega, h'⟩
  exact Option.some.inj (e.symm.trans e')

theorem range_reads {top : Nat} {v : List Char} (h : (parseRange top v).isSome = true) : ∃ y, parseRange top v = some y ∧ ∀ z, ReadsNumber v z ↔ z = y := by
  obtain ⟨y, hy⟩ := Option.isSome_iff_exists.1 h
  have h1 := ((parseRange_iff top v y).1 hy).2
  exact ⟨y, hy, fun z => ⟨fun hz => readsNumber_fun hz h1, fun e => e ▸ h1⟩⟩

/-! ### atsc -/

theorem atsc_asks {s : Said AtscKey} (ho : atscManual.InOrder s) (a : AtscArgs) : AsksFor s a ↔ atscBuild s = .ok a := by
  obtain ⟨g1, hn⟩ := (inOrder_iff atsc_described s).1 ho
  have hval : ∀ k v, (k, v) ∈ s → atscValid k v = true := fun k v h => (g1 _ h).2
  have h1 := fun x => chosen_iff hn .compressor parseCompressor (fun v c => (v, c) ∈ compressorNames) .auto x fun v hv => by
    obtain ⟨y, hy⟩ := Option.isSome_iff_exists.1 (hval .compressor v hv)
    exact ⟨y, hy, fun z => by rw [← parseCompressor_iff, hy]; exact ⟨fun e => (Option.some.inj e).symm, fun e => by rw [e]⟩⟩
  have h2 := fun x => chosen_iff hn .error (parseRange 51) ReadsNumber 3 x fun v hv => range_reads (hval .error v hv)
  have h3 := fun x => chosen_iff hn .level (parseRange 7) ReadsNumber 0 x fun v hv => range_reads (hval .level v hv)
  have h4 := fun x => chosen_iff hn .fields some (fun v x => v = x) "time,value".toList x fun v _ => ⟨v, rfl, fun z => eq_comm⟩
  rw [show (Seen.value s AtscKey.fields).bind some = Seen.value s AtscKey.fields by cases Seen.value s AtscKey.fields <;> rfl] at h4
  unfold atscBuild
  obtain ⟨i, ⟨⟨c, e, l⟩, u, csv, nh, f⟩, vb⟩ := a
  constructor
  · rintro ⟨a1, a2, a3, a4, a5, a6, a7, a8, a9⟩
    rw [(value_iff hn .input i).2 a1]
    dsimp only at a2 a3 a4 a5 a6 a7 a8 a9 ⊢
    rw [(h1 _).1 a2, (h2 _).1 a3, (h3 _).1 a4, (h4 _).1 a5, (flagged_iff hn _ _).1 a6, (flagged_iff hn _ _).1 a7, (flagged_iff hn _ _).1 a8,
      (flagged_iff hn _ _).1 a9]
  · intro h
    cases hi : Seen.value s AtscKey.input with
    | none => rw [hi] at h; cases h
    | some p =>
      rw [hi] at h
      simp only [Except.ok.injEq, AtscArgs.mk.injEq, RunArgs.mk.injEq, CompArgs.mk.injEq] at h
      obtain ⟨rfl, ⟨⟨e1, e2, e3⟩, e4, e5, e6, e7⟩, e8⟩ := h
      exact ⟨(value_iff hn .input p).1 hi, (h1 _).2 e1.symm, (h2 _).2 e2.symm, (h3 _).2 e3.symm, (h4 _).2 e7.symm, (flagged_iff hn _ _).2 e4.symm,
        (flagged_iff hn _ _).2 e5.symm, (flagged_iff hn _ _).2 e6.symm, (flagged_iff hn _ _).2 e8.symm⟩

/-- **Which command lines atsc accepts, and what they mean**: exactly the words that are a way (any of the usual spellings, any order) to say things in
order - every option known and with an acceptable value, nothing twice, no help or version - with an input; every setting is the one said or the default. -/
theorem C104_exact (ts : List Tok) (a : AtscArgs) : atscParse ts = .ok a ↔ ∃ s, Line atscManual ts s ∧ atscManual.InOrder s ∧ AsksFor s a := by
  unfold atscParse
  constructor
  · intro h
    cases hr : atscCmd.run none false [] ts with
    | error st => rw [hr] at h; cases h
    | ok s =>
      rw [hr] at h
      obtain ⟨h1, h2⟩ := (run_iff atsc_described ts s).1 hr
      exact ⟨s, h1, h2, (atsc_asks h2 a).2 h⟩
  · rintro ⟨s, h1, h2, h3⟩
    rw [(run_iff atsc_described ts s).2 ⟨h1, h2⟩]
    exact (atsc_asks h2 a).1 h3

/-- The first thing said that is not in order decides how the program ends: help, version, or a usage error for a repetition or a bad value. -/
theorem C104_first (ts : List Tok) (s1 s2 : Said AtscKey) (x : AtscKey × List Char) (h : Line atscManual ts (s1 ++ x :: s2)) (h1 : atscManual.InOrder s1) :
    (∀ st, atscManual.Stops x st → atscParse ts = .error st) ∧
    ((∀ st, ¬ atscManual.Stops x st) → ¬ atscManual.Accepts x ∨ x.1 ∈ s1.map Prod.fst → atscParse ts = .error .usage) := by
  obtain ⟨g1, g2⟩ := run_first atsc_described h h1
  unfold atscParse
  exact ⟨fun st hst => by rw [g1 st hst], fun h2 h3 => by rw [g2 h2 h3]⟩

/-- Help and version appear only when a word asks for them; every other command line that is not accepted is a usage error. -/
theorem C104_stop (ts : List Tok) (st : Stop) (h : atscParse ts = .error st) :
    st = .usage ∨ ∃ e ∈ atscManual.entries, e.stop = some st ∧ ∃ t ∈ ts, Asks e t := by
  by_cases hst : st = .usage
  · exact Or.inl hst
  · right
    unfold atscParse at h
    cases hr : atscCmd.run none false [] ts with
    | error st' =>
      rw [hr] at h
      obtain rfl := Except.error.inj h
      exact run_stop atsc_described hst ts none [] (fun k hk => by cases hk) hr
    | ok s =>
      rw [hr] at h
      dsimp only at h
      unfold atscBuild at h
      split at h
      · exact absurd (Except.error.inj h).symm hst
      · cases h

/-- Without an input the command line is refused. -/
theorem C104_missing (ts : List Tok) (s : Said AtscKey) (h : Line atscManual ts s) (ho : atscManual.InOrder s) (hi : ∀ v, (.input, v) ∉ s) :
    atscParse ts = .error .usage := by
  unfold atscParse
  rw [(run_iff atsc_described ts s).2 ⟨h, ho⟩]
  show atscBuild s = _
  unfold atscBuild
  rw [(value_none ho.2 .input).2 hi]

/-- The order of what is said does not matter, nor which of the spellings is used: the same things said in another order and in other spellings mean
the same, or are both refused. -/
theorem C104_order (ts ts' : List Tok) (s s' : Said AtscKey) (h : Line atscManual ts s) (h' : Line atscManual ts' s') (hp : s.Perm s')
    (hs : ∀ x ∈ s, ∀ st, ¬ atscManual.Stops x st) : atscParse ts = atscParse ts' := by
  have hio : atscManual.InOrder s ↔ atscManual.InOrder s' := by
    unfold Manual.InOrder
    rw [(hp.map Prod.fst).nodup_iff]
    refine and_congr_left fun _ => ⟨fun g x hx => g x (hp.mem_iff.2 hx), fun g x hx => g x (hp.mem_iff.1 hx)⟩
  unfold atscParse
  rcases run_noStop atsc_described h hs with ⟨ho, e⟩ | ⟨ho, e⟩
  · rcases run_noStop atsc_described h' (fun x hx => hs x (hp.mem_iff.2 hx)) with ⟨ho', e'⟩ | ⟨ho', e'⟩
    · rw [e, e']
      have hv : ∀ k, Seen.value s k = Seen.value s' k := by
        intro k
        cases hk : Seen.value s' k with
        | none => exact (value_none ho.2 k).2 fun v hm => (value_none ho'.2 k).1 hk v (hp.mem_iff.1 hm)
        | some v => exact (value_iff ho.2 k v).2 (hp.mem_iff.2 ((value_iff ho'.2 k v).1 hk))
      show atscBuild s = atscBuild s'
      unfold atscBuild Seen.has
      simp only [hv]
    · exact absurd (hio.1 ho) ho'
  · rcases run_noStop atsc_described h' (fun x hx => hs x (hp.mem_iff.2 hx)) with ⟨ho', e'⟩ | ⟨ho', e'⟩
    · exact absurd (hio.2 ho') ho
    · rw [e, e']

theorem chosen_le {K : Type} {s : Said K} {k : K} {d x top : Nat} (h : Chosen s k ReadsNumber d x) (hd : d ≤ top)
    (hs : ∀ v, (k, v) ∈ s → ∃ n ≤ top, ReadsNumber v n) : x ≤ top := by
  rcases h with ⟨v, hv, hr⟩ | ⟨_, rfl⟩
  · obtain ⟨n, hn, hr'⟩ := hs v hv
    rw [readsNumber_fun hr hr']; exact hn
  · exact hd

theorem accepts_value {K : Type} [DecidableEq K] {m : Manual K} {c : Cmd K} (D : Describes m c) {s : Said K} (ho : m.InOrder s) {e : Entry K}
    (he : e ∈ m.entries) {P : List Char → Prop} (hP : e.value = some P) (v : List Char) (hv : (e.key, v) ∈ s) : P v := by
  rcases (ho.1 _ hv).1 with ⟨h1, _⟩ | ⟨e', he', h1, h2⟩
  · exact absurd h1 (D.fresh e he)
  · rw [D.unique e' he' e he h1] at h2
    exact h2 P hP

/-- Whatever the arguments, an accepted command line has an error of at most 50 percent and a level of at most 6:
the hypothesis `Valid` of the other theorems about the programs is met by every run that gets that far. -/
theorem C104_ranges (ts : List Tok) (a : AtscArgs) (h : atscParse ts = .ok a) : a.run.comp.Valid := by
  obtain ⟨s, _, ho, ha⟩ := (C104_exact ts a).1 h
  exact ⟨chosen_le ha.error (by decide) fun v hv => accepts_value atsc_described ho (e := atscManual.entries[1]) (List.getElem_mem _) rfl v hv,
    chosen_le ha.level (by decide) fun v hv => accepts_value atsc_described ho (e := atscManual.entries[3]) (List.getElem_mem _) rfl v hv⟩

/-- Numbers: the decimal notation of a number is read as that number. -/
theorem C104_numbers (n : Nat) : ReadsNumber (Nat.toDigits 10 n) n ∧ ∀ k, ReadsNumber (Nat.toDigits 10 n) k → k = n := by
  have h : ReadsNumber (Nat.toDigits 10 n) n :=
    ⟨_, Nat.toDigits_ne_nil, fun c hc => Nat.isDigit_of_mem_toDigits (by decide) (by decide) hc, Nat.ofDigitChars_ten_toDigits, Or.inl rfl⟩
  exact ⟨h, fun k hk => readsNumber_fun hk h⟩

/-- A run with arguments that are refused, or that ask for help or the version, leaves the files alone; status 2 means exactly a usage error,
help and version end with status 0. -/
theorem C104_refused (env : Env) (stat : List Char → Input) (fs : Fs) (ts : List Tok) :
    (∀ s, atscParse ts = .error s → (atscMain env stat fs ts).1 = fs) ∧
    ((atscMain env stat fs ts).2 = 2 ↔ atscParse ts = .error .usage) ∧
    (∀ s, atscParse ts = .error s → s ≠ .usage → (atscMain env stat fs ts).2 = 0) ∧
    ∀ a, atscParse ts = .ok a → atscMain env stat fs ts = runMain env a.run fs (stat a.input) := by
  unfold atscMain
  cases h : atscParse ts with
  | error s =>
    refine ⟨fun _ _ => rfl, ?_, ?_, fun a ha => (by cases ha)⟩
    · cases s <;> simp [Stop.status]
    · intro s' hs' hne
      obtain rfl := Except.error.inj hs'
      cases s <;> first | rfl | exact absurd rfl hne
  | ok a =>
    refine ⟨fun s hs => (by cases hs), ?_, fun s hs => (by cases hs), fun a' ha => (by rw [Except.ok.inj ha])⟩
    refine ⟨fun h2 => ?_, fun h2 => (by cases h2)⟩
    exfalso
    unfold runMain at h2
    dsimp only at h2
    generalize (runArgs env a.run fs (stat a.input)).2 = e at h2
    cases e <;> cases h2

/-! ### csv-compressor -/

theorem csv_asks (path : List Char → FPath) {s : Said CsvKey} (ho : csvManual.InOrder s) (i : List Char) (a : CsvArgs) :
    CsvAsksFor path s i a ↔ csvBuild path s = .ok (i, a) := by
  obtain ⟨g1, hn⟩ := (inOrder_iff csv_described s).1 ho
  have hval : ∀ k v, (k, v) ∈ s → csvValid k v = true := fun k v h => (g1 _ h).2
  have h1 := fun x => chosen_iff hn .compressor parseCsvCompressor (fun v c => (v, c) ∈ compressorNames) .auto x fun v hv => by
    obtain ⟨y, hy⟩ := Option.isSome_iff_exists.1 (hval .compressor v hv)
    have hy' := (parseCompressor_iff v y).2 ((parseCsvCompressor_iff v y).1 hy).1
    exact ⟨y, hy, fun z => by rw [← parseCompressor_iff, hy']; exact ⟨fun e => (Option.some.inj e).symm, fun e => by rw [e]⟩⟩
  have h2 := fun x => chosen_iff hn .error (parseRange 51) ReadsNumber 5 x fun v hv => range_reads (hval .error v hv)
  have h3 := fun x => chosen_iff hn .level (parseRange 7) ReadsNumber 0 x fun v hv => range_reads (hval .level v hv)
  have h4 := fun x => chosen_iff hn .output (fun v => some (some (path v))) (fun v o => o = some (path v)) none x fun v _ => ⟨some (path v), rfl, fun z => Iff.rfl⟩
  have e4 : ((Seen.value s CsvKey.output).bind fun v => some (some (path v))).getD none = (Seen.value s CsvKey.output).map path := by
    cases Seen.value s CsvKey.output <;> rfl
  rw [e4] at h4
  unfold csvBuild
  obtain ⟨⟨c, e, l⟩, o, u, nc, ov, ow⟩ := a
  constructor
  · rintro ⟨a1, a2, a3, a4, a5, a6, a7, a8, a9⟩
    rw [(value_iff hn .input i).2 a1]
    dsimp only at a2 a3 a4 a5 a6 a7 a8 a9 ⊢
    rw [(h1 _).1 a2, (h2 _).1 a3, (h3 _).1 a4, (h4 _).1 a5, (flagged_iff hn _ _).1 a6, (flagged_iff hn _ _).1 a7, (flagged_iff hn _ _).1 a8,
      (flagged_iff hn _ _).1 a9]
  · intro h
    cases hi : Seen.value s CsvKey.input with
    | none => rw [hi] at h; cases h
    | some p =>
      rw [hi] at h
      simp only [Except.ok.injEq, Prod.mk.injEq, CsvArgs.mk.injEq, CompArgs.mk.injEq] at h
      obtain ⟨rfl, ⟨e1, e2, e3⟩, e4, e5, e6, e7, e8⟩ := h
      exact ⟨(value_iff hn .input p).1 hi, (h1 _).2 e1.symm, (h2 _).2 e2.symm, (h3 _).2 e3.symm, (h4 _).2 e4.symm, (flagged_iff hn _ _).2 e5.symm,
        (flagged_iff hn _ _).2 e6.symm, (flagged_iff hn _ _).2 e7.symm, (flagged_iff hn _ _).2 e8.symm⟩

/-- **Which command lines csv-compressor accepts, and what they mean.** -/
theorem C104_csv_exact (path : List Char → FPath) (ts : List Tok) (i : List Char) (a : CsvArgs) :
    csvParse path ts = .ok (i, a) ↔ ∃ s, Line csvManual ts s ∧ csvManual.InOrder s ∧ CsvAsksFor path s i a := by
  unfold csvParse
  constructor
  · intro h
    cases hr : csvCmd.run none false [] ts with
    | error st => rw [hr] at h; cases h
    | ok s =>
      rw [hr] at h
      obtain ⟨h1, h2⟩ := (run_iff csv_described ts s).1 hr
      exact ⟨s, h1, h2, (csv_asks path h2 i a).2 h⟩
  · rintro ⟨s, h1, h2, h3⟩
    rw [(run_iff csv_described ts s).2 ⟨h1, h2⟩]
    exact (csv_asks path h2 i a).1 h3

/-- How csv-compressor ends otherwise: the first thing not in order decides; help and version only where a word asks for them; no input is an error. -/
theorem C104_csv_ends (path : List Char → FPath) (ts : List Tok) :
    (∀ (s1 s2 : Said CsvKey) (x : CsvKey × List Char), Line csvManual ts (s1 ++ x :: s2) → csvManual.InOrder s1 →
      (∀ st, csvManual.Stops x st → csvParse path ts = .error st) ∧
      ((∀ st, ¬ csvManual.Stops x st) → ¬ csvManual.Accepts x ∨ x.1 ∈ s1.map Prod.fst → csvParse path ts = .error .usage)) ∧
    (∀ s, Line csvManual ts s → csvManual.InOrder s → (∀ v, (.input, v) ∉ s) → csvParse path ts = .error .usage) ∧
    ∀ st, csvParse path ts = .error st → st = .usage ∨ ∃ e ∈ csvManual.entries, e.stop = some st ∧ ∃ t ∈ ts, Asks e t := by
  unfold csvParse
  refine ⟨fun s1 s2 x h h1 => ?_, fun s h ho hi => ?_, fun st h => ?_⟩
  · obtain ⟨g1, g2⟩ := run_first csv_described h h1
    exact ⟨fun st hst => by rw [g1 st hst], fun h2 h3 => by rw [g2 h2 h3]⟩
  · rw [(run_iff csv_described ts s).2 ⟨h, ho⟩]
    show csvBuild path s = _
    unfold csvBuild
    rw [(value_none ho.2 .input).2 hi]
  · by_cases hst : st = .usage
    · exact Or.inl hst
    · right
      cases hr : csvCmd.run none false [] ts with
      | error st' =>
        rw [hr] at h
        obtain rfl := Except.error.inj h
        exact run_stop csv_described hst ts none [] (fun k hk => by cases hk) hr
      | ok s =>
        rw [hr] at h
        dsimp only at h
        unfold csvBuild at h
        split at h
        · exact absurd (Except.error.inj h).symm hst
        · cases h

/-- Whatever the arguments, csv-compressor runs only with an error of at most 50, a level of at most 6 and not with RLE. -/
theorem C104_csv_ranges (path : List Char → FPath) (ts : List Tok) (i : List Char) (a : CsvArgs) (h : csvParse path ts = .ok (i, a)) :
    a.comp.Valid ∧ a.comp.compressor ≠ .rle := by
  obtain ⟨s, _, ho, ha⟩ := (C104_csv_exact path ts i a).1 h
  refine ⟨⟨chosen_le ha.error (by decide) fun v hv => accepts_value csv_described ho (e := csvManual.entries[7]) (List.getElem_mem _) rfl v hv,
    chosen_le ha.level (by decide) fun v hv => accepts_value csv_described ho (e := csvManual.entries[8]) (List.getElem_mem _) rfl v hv⟩, ?_⟩
  rcases ha.compressor with ⟨v, hv, hr⟩ | ⟨_, e⟩
  · obtain ⟨c, hc, hne⟩ := accepts_value csv_described ho (e := csvManual.entries[6]) (List.getElem_mem _) rfl v hv
    have e1 := (parseCompressor_iff v _).2 hr
    have e2 := (parseCompressor_iff v _).2 hc
    rw [Option.some.inj (e1.symm.trans e2)]
    exact hne
  · rw [e]; decide

/-- What a run of csv-compressor does: refused command lines leave the files alone (status 2 after a usage error, 0 after help and version); so does an
input that is not a regular file (a panic, status 101); otherwise it is the run with those settings, status 0 exactly if it does not panic. -/
theorem C104_csv_main (env : CsvEnv) (path : List Char → FPath) (isFile : List Char → Bool) (fs : Fs) (ts : List Tok) :
    (∀ s, csvParse path ts = .error s → csvMain env path isFile fs ts = (fs, if s = .usage then 2 else 0)) ∧
    (∀ i a, csvParse path ts = .ok (i, a) → isFile i = false → csvMain env path isFile fs ts = (fs, 101)) ∧
    ∀ i a, csvParse path ts = .ok (i, a) → isFile i = true → csvMain env path isFile fs ts =
      ((csvRun env a fs (path i)).1, if (csvRun env a fs (path i)).2 = .ok () then 0 else 101) := by
  unfold csvMain
  refine ⟨fun s hs => ?_, fun i a h hf => ?_, fun i a h hf => ?_⟩
  · rw [hs]; cases s <;> rfl
  · rw [h]
    dsimp only
    rw [hf]; rfl
  · rw [h]
    dsimp only
    rw [if_pos hf]
    rcases csvRun env a fs (path i) with ⟨fs', e | u⟩
    · rfl
    · rfl

/-- **C98, `--output-csv`** of csv-compressor, documented as enabling the CSV output, acts nowhere: with it the run does exactly what it does without it. -/
theorem C98_refuted_output_csv (env : CsvEnv) (path : List Char → FPath) (isFile : List Char → Bool) (fs : Fs) (ts : List Tok) (s : Said CsvKey)
    (h : Line csvManual ts s) (ho : csvManual.InOrder s) (hn : ∀ v, (.outputCsv, v) ∉ s) :
    csvMain env path isFile fs ("--output-csv".toList :: ts) = csvMain env path isFile fs ts := by
  have hm : csvManual.entries[5] ∈ csvManual.entries := List.getElem_mem _
  have hl : Line csvManual ("--output-csv".toList :: ts) ((.outputCsv, []) :: s) := by
    have := Line.flag (m := csvManual) (name := "output-csv".toList) (e := csvManual.entries[5]) ⟨hm, rfl⟩ rfl h
    rw [show "--output-csv".toList = ['-', '-'] ++ "output-csv".toList by decide +kernel]
    exact this
  have ho' : csvManual.InOrder ((.outputCsv, []) :: s) := by
    refine ⟨fun x hx => ?_, ?_⟩
    · rcases List.mem_cons.1 hx with rfl | hx
      · refine ⟨Or.inr ⟨_, hm, rfl, fun P hP => (by cases hP)⟩, fun st hst => ?_⟩
        rw [stops_iff csv_described] at hst; cases hst
      · exact ho.1 x hx
    · rw [List.map_cons, List.nodup_cons]
      refine ⟨fun hx => ?_, ho.2⟩
      obtain ⟨x, hx, e⟩ := List.mem_map.1 hx
      exact hn x.2 (by have e : x.1 = CsvKey.outputCsv := e; rw [← e]; exact hx)
  have key : csvParse path ("--output-csv".toList :: ts) = csvParse path ts := by
    unfold csvParse
    rw [(run_iff csv_described _ _).2 ⟨hl, ho'⟩, (run_iff csv_described _ _).2 ⟨h, ho⟩]
    have hg : ∀ k : CsvKey, k ≠ .outputCsv → Seen.value ((.outputCsv, []) :: s) k = Seen.value s k := by
      intro k hk
      unfold Seen.value
      rw [List.find?_cons, decide_eq_false (show ((CsvKey.outputCsv, []) : CsvKey × List Char).1 ≠ k from Ne.symm hk)]
    show csvBuild path _ = csvBuild path _
    unfold csvBuild Seen.has
    rw [hg .input (by decide), hg .compressor (by decide), hg .error (by decide), hg .level (by decide), hg .output (by decide),
      hg .uncompress (by decide), hg .noCompression (by decide), hg .outputVsri (by decide), hg .outputWavbrro (by decide)]
  unfold csvMain
  rw [key]

/-! ### wav2wbro -/

/-- **What a wav2wbro command line does**: if it is a way to say things in order, the file named is converted, validated exactly with `--validate`. -/
theorem C104_wav_exact (hound : Bytes → Option (Nat × List (Option Int))) (p : Profile) (fs : Wav.Files) (ts : List Tok) (s : Said WavKey)
    (h : Line wavManual ts s) (ho : wavManual.InOrder s) :
    (∀ name v, (.input, name) ∈ s → Flagged s .validate v →
      wav2wbro hound p fs ts = ((Wav.wavMain hound p fs name v).1, if (Wav.wavMain hound p fs name v).2 = .ok () then 0 else 101)) ∧
    ((∀ name, (.input, name) ∉ s) → wav2wbro hound p fs ts = (fs, 2)) := by
  unfold wav2wbro
  rw [(run_iff wav_described ts s).2 ⟨h, ho⟩]
  refine ⟨fun name v hi hv => ?_, fun hi => ?_⟩
  · rw [(flagged_iff ho.2 _ _).1 hv]
    dsimp only
    rw [(value_iff ho.2 .input name).2 hi]
    dsimp only
    rcases Wav.wavMain hound p fs name (Seen.has s .validate) with ⟨fs', e | u⟩
    · rfl
    · rfl
  · dsimp only
    rw [(value_none ho.2 .input).2 hi]
    rfl

/-- Every other wav2wbro command line leaves the files alone: status 2, or 0 where a word asks for help or the version. -/
theorem C104_wav_refused (hound : Bytes → Option (Nat × List (Option Int))) (p : Profile) (fs : Wav.Files) (ts : List Tok)
    (h : ∀ s, Line wavManual ts s → ¬ wavManual.InOrder s) :
    (wav2wbro hound p fs ts).1 = fs ∧ ((wav2wbro hound p fs ts).2 = 2 ∨
      (wav2wbro hound p fs ts).2 = 0 ∧ ∃ e ∈ wavManual.entries, e.stop.isSome = true ∧ ∃ t ∈ ts, Asks e t) ∧
    ∀ s1 s2 x, Line wavManual ts (s1 ++ x :: s2) → wavManual.InOrder s1 → (∃ st, wavManual.Stops x st) → (wav2wbro hound p fs ts).2 = 0 := by
  unfold wav2wbro
  cases hr : wavCmd.run none false [] ts with
  | ok s =>
    obtain ⟨h1, h2⟩ := (run_iff wav_described ts s).1 hr
    exact absurd h2 (h s h1)
  | error st =>
    refine ⟨rfl, ?_, ?_⟩
    · by_cases hst : st = .usage
      · rw [hst]; exact Or.inl rfl
      · obtain ⟨e, he, h1, h2⟩ := run_stop wav_described hst ts none [] (fun k hk => by cases hk) hr
        refine Or.inr ⟨?_, e, he, by rw [h1]; rfl, h2⟩
        cases st <;> first | rfl | exact absurd rfl hst
    · rintro s1 s2 x hl h1 ⟨st', hst'⟩
      rw [(run_first wav_described hl h1).1 st' hst'] at hr
      obtain rfl := Except.error.inj hr
      obtain ⟨e, he, _, h2⟩ := hst'
      simp only [wavManual, List.mem_cons, List.not_mem_nil, or_false] at he
      rcases he with rfl | rfl | rfl
      · cases h2
      · obtain rfl := Option.some.inj h2; rfl
      · obtain rfl := Option.some.inj h2; rfl

/-! ### Examples: the command lines of the documentation (README.md, docs/usage.md) -/

/-- `atsc --compressor fft -e 1 in` says that the compressor is fft, the error 1 and the input `in`. -/
theorem usage_line : Line atscManual ["--compressor".toList, "fft".toList, "-e".toList, "1".toList, "in".toList]
    [(.compressor, "fft".toList), (.error, "1".toList), (.input, "in".toList)] := by
  have h0 : atscManual.entries[0] ∈ atscManual.entries := List.getElem_mem _
  have h1 : atscManual.entries[1] ∈ atscManual.entries := List.getElem_mem _
  have w := Line.word (m := atscManual) (v := "in".toList) (Or.inr (by decide +kernel)) Line.nil
  have e := Line.shortSep (m := atscManual) (ns := []) (n := 'e') (v := "1".toList) (e := atscManual.entries[1]) Bunch.nil ⟨h1, rfl⟩ rfl (Or.inr (by decide +kernel)) w
  have c := Line.longSep (m := atscManual) (name := "compressor".toList) (v := "fft".toList) (e := atscManual.entries[0]) ⟨h0, rfl⟩ rfl (Or.inr (by decide +kernel)) e
  rw [show "--compressor".toList = ['-', '-'] ++ "compressor".toList by decide +kernel, show "-e".toList = ['-', 'e'] by decide +kernel]
  exact c

theorem usage_inOrder : atscManual.InOrder [(.compressor, "fft".toList), (.error, "1".toList), (.input, "in".toList)] := by
  rw [inOrder_iff atsc_described]
  exact ⟨by decide +kernel, by decide +kernel⟩

example : ∃ a, atscParse ["--compressor".toList, "fft".toList, "-e".toList, "1".toList, "in".toList] = .ok a ∧
    a.input = "in".toList ∧ a.run.comp.compressor = .fft ∧ a.run.comp.error = 1 ∧ a.run.comp.level = 0 ∧ a.run.uncompress = false := by
  refine ⟨⟨"in".toList, ⟨⟨.fft, 1, 0⟩, false, false, false, "time,value".toList⟩, false⟩, (C104_exact _ _).2 ⟨_, usage_line, usage_inOrder, ?_⟩, rfl, rfl, rfl, rfl, rfl⟩
  refine ⟨by simp, Or.inl ⟨"fft".toList, by simp, by simp [compressorNames]⟩, Or.inl ⟨"1".toList, by simp, ?_⟩, Or.inr ⟨by simp, rfl⟩, Or.inr ⟨by simp, rfl⟩, ?_, ?_, ?_, ?_⟩
  · exact (C104_numbers 1).1
  all_goals simp [Flagged]

/-- README.md and docs/usage.md give 5 as the default error; without `-e` the program runs with 3. -/
theorem C104_refuted_readme_default (path : List Char) (hp : path ≠ []) (h : Plain path) : ∃ a, atscParse [path] = .ok a ∧ a.run.comp.error = 3 := by
  have hl := Line.word (m := atscManual) h Line.nil
  have ho : atscManual.InOrder [(atscManual.input, path)] := by
    refine ⟨fun x hx => ?_, List.nodup_singleton _⟩
    rw [List.mem_singleton.1 hx]
    refine ⟨Or.inl ⟨rfl, hp⟩, fun st hst => ?_⟩
    rw [stops_iff atsc_described] at hst; cases hst
  refine ⟨⟨path, ⟨⟨.auto, 3, 0⟩, false, false, false, "time,value".toList⟩, false⟩, (C104_exact _ _).2 ⟨_, hl, ho, ?_⟩, rfl⟩
  refine ⟨by simp [atscManual], Or.inr ⟨by simp [atscManual], rfl⟩, Or.inr ⟨by simp [atscManual], rfl⟩, Or.inr ⟨by simp [atscManual], rfl⟩,
    Or.inr ⟨by simp [atscManual], rfl⟩, ?_, ?_, ?_, ?_⟩
  all_goals simp [Flagged, atscManual]

/-- Was it refused as a usage error? -/
def isUsage {α : Type} : Except Stop α → Bool
  | .error .usage => true
  | _ => false

/-- 51 percent, level 7, an unknown compressor, a repeated option, a missing value, two inputs and `--uncompress` (only `-u` exists) are refused;
`-ue5` is `-u -e 5`. -/
example : isUsage (atscParse ["-e51".toList, "in".toList]) ∧ isUsage (atscParse ["-c".toList, "7".toList, "in".toList]) ∧
    isUsage (atscParse ["--compressor=RLE".toList, "in".toList]) ∧ isUsage (atscParse ["-e1".toList, "--error".toList, "2".toList, "in".toList]) ∧
    isUsage (atscParse ["in".toList, "-e".toList]) ∧ isUsage (atscParse ["in".toList, "out".toList]) ∧
    isUsage (atscParse ["--uncompress".toList, "in".toList]) ∧
    (match atscParse ["-ue5".toList, "in".toList] with | .ok a => a.run.uncompress && decide (a.run.comp.error = 5) | _ => false) = true := by
  decide +kernel

end Atsc
