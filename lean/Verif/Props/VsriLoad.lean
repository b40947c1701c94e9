import Verif.Spec.IndexFile
import Verif.Props.VsriCut
/- C105: which files are index files. -/
namespace Atsc
open Vsri

theorem space_iff (c : Char) : isSpaceChar c = true ↔ c.toNat ∈ whiteSpace := by
  unfold isSpaceChar whiteSpace
  simp only [decide_eq_true_eq, List.mem_cons, List.not_mem_nil, or_false]
  omega

/-! ### Fields -/

theorem parseI32_iff (cs : List Char) (n : Int) : parseI32 cs = some n ↔ InI32 n ∧ ReadsInt cs n := by
  have key : ∀ (ds : List Char) (sign : Int),
      (if ds = [] ∨ ¬ ds.all Char.isDigit then none
        else if InI32 (sign * (Nat.ofDigitChars 10 ds 0 : Int)) then some (sign * (Nat.ofDigitChars 10 ds 0 : Int)) else none) = some n ↔
      InI32 n ∧ ds ≠ [] ∧ (∀ c ∈ ds, c.isDigit = true) ∧ n = sign * (Nat.ofDigitChars 10 ds 0 : Int) := by
    intro ds sign
    by_cases h1 : ds = [] ∨ ¬ ds.all Char.isDigit
    · rw [if_pos h1]
      constructor
      · intro h; cases h
      · rintro ⟨_, h2, h3, _⟩
        rcases h1 with h1 | h1
        · exact absurd h1 h2
        · exact absurd (List.all_eq_true.2 h3) h1
    · rw [if_neg h1]
      rw [not_or, not_not, List.all_eq_true] at h1
      by_cases h2 : InI32 (sign * (Nat.ofDigitChars 10 ds 0 : Int))
      · rw [if_pos h2]
        constructor
        · intro h
          obtain rfl := Option.some.inj h
          exact ⟨h2, h1.1, h1.2, rfl⟩
        · rintro ⟨_, _, _, rfl⟩; rfl
      · rw [if_neg h2]
        constructor
        · intro h; cases h
        · rintro ⟨h3, _, _, rfl⟩; exact absurd h3 h2
  have hsign : ∀ (ds : List Char), (∀ c ∈ ds, c.isDigit = true) → ∀ r, ds ≠ '+' :: r ∧ ds ≠ '-' :: r := by
    intro ds hd r
    constructor <;> (rintro rfl; exact absurd (hd _ List.mem_cons_self) (by decide))
  unfold parseI32 ReadsInt
  dsimp only
  split
  · rename_i ds
    rw [key]
    refine and_congr_right fun _ => ⟨?_, ?_⟩
    · rintro ⟨h1, h2, h3⟩; exact ⟨ds, h1, h2, Or.inr ⟨rfl, by rw [h3]; omega⟩⟩
    · rintro ⟨ds', h1, h2, ⟨h | h, _⟩ | ⟨h, h3⟩⟩
      · exact absurd h.symm (hsign ds' h2 _).2
      · exact absurd (List.cons.inj h).1 (by decide)
      · obtain rfl := (List.cons.inj h).2
        exact ⟨h1, h2, by rw [h3]; omega⟩
  · rename_i ds
    rw [key]
    refine and_congr_right fun _ => ⟨?_, ?_⟩
    · rintro ⟨h1, h2, h3⟩; exact ⟨ds, h1, h2, Or.inl ⟨Or.inr rfl, by rw [h3]; omega⟩⟩
    · rintro ⟨ds', h1, h2, ⟨h | h, h3⟩ | ⟨h, h3⟩⟩
      · exact absurd h.symm (hsign ds' h2 _).1
      · obtain rfl := (List.cons.inj h).2
        exact ⟨h1, h2, by rw [h3]; omega⟩
      · exact absurd (List.cons.inj h).1 (by decide)
  · rename_i hm hp
    rw [key]
    refine and_congr_right fun _ => ⟨?_, ?_⟩
    · rintro ⟨h1, h2, h3⟩; exact ⟨cs, h1, h2, Or.inl ⟨Or.inl rfl, by rw [h3]; omega⟩⟩
    · rintro ⟨ds', h1, h2, ⟨h | h, h3⟩ | ⟨h, h3⟩⟩
      · rw [h]; exact ⟨h1, h2, by rw [h3]; omega⟩
      · exact absurd h (hp ds')
      · exact absurd h (hm ds')

theorem dropWhile_blank : ∀ {b r : List Char}, Blank b → (b ++ r).dropWhile isSpaceChar = r.dropWhile isSpaceChar
  | [], _, _ => rfl
  | c :: b, r, h => by
    rw [List.cons_append, List.dropWhile_cons_of_pos ((space_iff c).2 (h c (by simp)))]
    exact dropWhile_blank fun x hx => h x (by simp [hx])

theorem dropWhile_stop : ∀ {r : List Char}, (∀ c ∈ r.head?, isSpaceChar c = false) → r.dropWhile isSpaceChar = r
  | [], _ => rfl
  | c :: r, h => by rw [List.dropWhile_cons_of_neg (by rw [h c rfl]; decide)]

theorem dropWhile_split : ∀ (l : List Char), ∃ b, l = b ++ l.dropWhile isSpaceChar ∧ Blank b
  | [] => ⟨[], rfl, fun c hc => by cases hc⟩
  | c :: l => by
    by_cases hc : isSpaceChar c = true
    · rw [List.dropWhile_cons_of_pos hc]
      obtain ⟨b, h1, h2⟩ := dropWhile_split l
      refine ⟨c :: b, by rw [List.cons_append, ← h1], fun x hx => ?_⟩
      rcases List.mem_cons.1 hx with rfl | hx
      · exact (space_iff x).1 hc
      · exact h2 x hx
    · rw [List.dropWhile_cons_of_neg hc]
      exact ⟨[], rfl, fun c hc => by cases hc⟩

theorem trim_split (cs : List Char) : ∃ b a, cs = b ++ trimChars cs ++ a ∧ Blank b ∧ Blank a := by
  unfold trimChars
  obtain ⟨b, h1, h2⟩ := dropWhile_split cs
  obtain ⟨a, h3, h4⟩ := dropWhile_split (cs.dropWhile isSpaceChar).reverse
  refine ⟨b, a.reverse, ?_, h2, fun c hc => h4 c (List.mem_reverse.1 hc)⟩
  have := congrArg List.reverse h3
  rw [List.reverse_reverse, List.reverse_append] at this
  rw [List.append_assoc, ← this]
  exact h1

theorem reads_notSpace {cs : List Char} {n : Int} (h : ReadsInt cs n) : cs ≠ [] ∧ ∀ c ∈ cs, isSpaceChar c = false ∧ c ≠ ',' ∧ c ≠ '\n' := by
  obtain ⟨ds, h1, h2, h3⟩ := h
  have hd : ∀ c : Char, c.isDigit = true → isSpaceChar c = false ∧ c ≠ ',' ∧ c ≠ '\n' := by
    intro c hc
    refine ⟨NumChar.not_space (Or.inr hc), ?_, ?_⟩ <;> (rintro rfl; exact absurd hc (by decide))
  have hp : isSpaceChar '+' = false ∧ '+' ≠ ',' ∧ '+' ≠ '\n' := by decide
  have hm : isSpaceChar '-' = false ∧ '-' ≠ ',' ∧ '-' ≠ '\n' := by decide
  rcases h3 with ⟨rfl | rfl, _⟩ | ⟨rfl, _⟩
  · exact ⟨h1, fun c hc => hd c (h2 c hc)⟩
  · refine ⟨by simp, fun c hc => ?_⟩
    rcases List.mem_cons.1 hc with rfl | hc
    · exact hp
    · exact hd c (h2 c hc)
  · refine ⟨by simp, fun c hc => ?_⟩
    rcases List.mem_cons.1 hc with rfl | hc
    · exact hm
    · exact hd c (h2 c hc)

theorem trim_padded {b num a : List Char} (hb : Blank b) (ha : Blank a) (hne : num ≠ []) (hn : ∀ c ∈ num, isSpaceChar c = false) : trimChars (b ++ num ++ a) = num := by
  unfold trimChars
  have h1 : ∀ c ∈ (num ++ a).head?, isSpaceChar c = false := by
    intro c hc
    cases num with
    | nil => exact absurd rfl hne
    | cons x xs =>
      obtain rfl := Option.some.inj hc
      exact hn x (by simp)
  have h2 : ∀ c ∈ num.reverse.head?, isSpaceChar c = false := fun c hc => hn c (List.mem_reverse.1 (List.mem_of_head? hc))
  rw [List.append_assoc, dropWhile_blank hb, dropWhile_stop h1, List.reverse_append, dropWhile_blank (fun c hc => ha c (List.mem_reverse.1 hc)),
    dropWhile_stop h2, List.reverse_reverse]

theorem parseField_iff (cs : List Char) (n : Int) : parseField cs = .ok n ↔ HoldsInt cs n := by
  have e : parseField cs = .ok n ↔ parseI32 (trimChars cs) = some n := by
    unfold parseField
    cases parseI32 (trimChars cs) with
    | none => simp
    | some a => simp
  rw [e, parseI32_iff]
  unfold HoldsInt InI32
  constructor
  · rintro ⟨⟨h1, h2⟩, h3⟩
    obtain ⟨b, a, h4, h5, h6⟩ := trim_split cs
    exact ⟨h1, by omega, b, _, a, h4, h5, h6, h3⟩
  · rintro ⟨h1, h2, b, num, a, rfl, h5, h6, h3⟩
    obtain ⟨g1, g2⟩ := reads_notSpace h3
    rw [trim_padded h5 h6 g1 fun c hc => (g2 c hc).1]
    exact ⟨⟨h1, by omega⟩, h3⟩

theorem parseField_error (cs : List Char) : (∃ n, parseField cs = .ok n) ∨ parseField cs = .error .unwrap := by
  unfold parseField
  cases parseI32 (trimChars cs) with
  | none => exact Or.inr rfl
  | some a => exact Or.inl ⟨a, rfl⟩

theorem holds_noComma {cs : List Char} {n : Int} (h : HoldsInt cs n) : ',' ∉ cs := by
  obtain ⟨_, _, b, num, a, rfl, h5, h6, h3⟩ := h
  have hsp : ∀ l : List Char, Blank l → ',' ∉ l := fun l hl hc => absurd (hl _ hc) (by decide)
  rw [List.mem_append, List.mem_append, not_or, not_or]
  exact ⟨⟨hsp b h5, fun hc => ((reads_notSpace h3).2 _ hc).2.1 rfl⟩, hsp a h6⟩

/-! ### Segments -/

theorem split_join (c : Char) : ∀ (l : List Char), ∃ x xs, splitAtChar c l = x :: xs ∧ l = x ++ xs.flatMap (fun y => c :: y)
  | [] => ⟨[], [], rfl, rfl⟩
  | a :: l => by
    obtain ⟨x, xs, h1, h2⟩ := split_join c l
    rw [splitAtChar]
    by_cases ha : a = c
    · rw [if_pos ha]
      refine ⟨[], splitAtChar c l, rfl, ?_⟩
      rw [h1, List.flatMap_cons, List.nil_append, List.cons_append, ← h2, ha]
    · rw [if_neg ha, h1]
      exact ⟨a :: x, xs, rfl, by rw [List.cons_append, ← h2]⟩

theorem mapM_except_iff {α β : Type} {f : α → Except Panic β} : ∀ {l : List α} {r : List β}, l.mapM f = .ok r ↔ List.Forall₂ (fun a b => f a = .ok b) l r
  | [], r => by
    rw [List.mapM_nil]
    constructor
    · intro h; rw [← Except.ok.inj h]; exact .nil
    · intro h; cases h; rfl
  | a :: l, r => by
    rw [List.mapM_cons, stop_bind']
    constructor
    · rintro ⟨b, h1, h2⟩
      obtain ⟨bs, h3, h4⟩ := stop_bind'.1 h2
      rw [← Except.ok.inj h4]
      exact .cons h1 (mapM_except_iff.1 h3)
    · intro h
      cases h with
      | cons h1 h2 => exact ⟨_, h1, stop_bind'.2 ⟨_, mapM_except_iff.2 h2, rfl⟩⟩
where
  stop_bind' {γ δ : Type} {x : Except Panic γ} {g : γ → Except Panic δ} {b : δ} : (x >>= g) = .ok b ↔ ∃ a, x = .ok a ∧ g a = .ok b := by
    cases x with
    | error e => exact ⟨(fun h => by cases h), fun ⟨a, h, _⟩ => by cases h⟩
    | ok a => exact ⟨fun h => ⟨a, rfl, h⟩, fun ⟨a', h, h'⟩ => by rw [← Except.ok.inj h] at h'; exact h'⟩

theorem mapM_except_error {α β : Type} {f : α → Except Panic β} {e : Panic} : ∀ {l : List α}, (∀ a ∈ l, (∃ b, f a = .ok b) ∨ f a = .error e) →
    (∃ r, l.mapM f = .ok r) ∨ l.mapM f = .error e
  | [], _ => Or.inl ⟨[], rfl⟩
  | a :: l, h => by
    rw [List.mapM_cons]
    rcases h a (by simp) with ⟨b, hb⟩ | hb
    · rw [hb]
      rcases mapM_except_error (l := l) (e := e) fun x hx => h x (by simp [hx]) with ⟨r, hr⟩ | hr
      · simp only [bind, Except.bind]
        rw [hr]; exact Or.inl ⟨_, rfl⟩
      · simp only [bind, Except.bind]
        rw [hr]; exact Or.inr rfl
    · rw [hb]; exact Or.inr rfl

theorem parseSeg_iff (line : List Char) (s : Seg) : parseSeg line = .ok s ↔ SegmentLine line s := by
  unfold parseSeg SegmentLine
  rw [mapM_except_iff.stop_bind']
  constructor
  · rintro ⟨vs, h1, h2⟩
    rw [mapM_except_iff] at h1
    obtain ⟨x, xs, e1, e2⟩ := split_join ',' line
    rw [e1] at h1
    match vs, h2 with
    | [m, x0, y0, n], h2 =>
      rw [← Except.ok.inj h2]
      match h1 with
      | .cons (l₁ := xs) g1 hr =>
        match xs, hr, e2 with
        | _, .cons g2 (.cons g3 (.cons g4 .nil)), e2 =>
          refine ⟨_, _, _, _, ?_, (parseField_iff _ _).1 g1, (parseField_iff _ _).1 g2, (parseField_iff _ _).1 g3, (parseField_iff _ _).1 g4⟩
          rw [e2]
          simp
  · rintro ⟨a, b, c, d, rfl, g1, g2, g3, g4⟩
    refine ⟨[s.m, s.x0, s.y0, s.n], ?_, rfl⟩
    rw [split_append (holds_noComma g1), split_append (holds_noComma g2), split_append (holds_noComma g3), split_none (holds_noComma g4), mapM_except_iff]
    exact .cons ((parseField_iff _ _).2 g1) (.cons ((parseField_iff _ _).2 g2) (.cons ((parseField_iff _ _).2 g3) (.cons ((parseField_iff _ _).2 g4) .nil)))

theorem parseSeg_error (line : List Char) : (∃ s, parseSeg line = .ok s) ∨ parseSeg line = .error .unwrap := by
  unfold parseSeg
  rcases mapM_except_error (f := parseField) (e := .unwrap) (l := splitAtChar ',' line) fun a _ => parseField_error a with ⟨r, hr⟩ | hr
  · rw [hr]
    simp only [bind, Except.bind]
    split
    · exact Or.inl ⟨_, rfl⟩
    · exact Or.inr rfl
  · rw [hr]; exact Or.inr rfl

/-! ### Lines -/

theorem fileLines_strip {l r : List Char} (h1 : '\n' ∉ l) : fileLines (l ++ '\n' :: r) = stripCr l :: fileLines r := by
  unfold fileLines
  rw [split_append h1]
  have hne := split_ne_nil '\n' r
  dsimp only
  generalize splitAtChar '\n' r = ps at *
  have e : (l :: ps).getLastD [] = ps.getLastD [] := by
    cases ps with
    | nil => exact absurd rfl hne
    | cons y ys => rfl
  rw [e, List.dropLast_cons_of_ne_nil hne, List.map_cons, List.cons_append]

theorem lines_of {t : List Char} {ls : List (List Char)} (h : TextLines t ls) : fileLines t = ls := by
  induction h with
  | nil => rfl
  | last h1 h2 => rw [fileLines_one h2, if_neg h1]
  | lf h1 h2 _ ih =>
    rw [fileLines_strip h1, ih]
    unfold stripCr
    rw [if_neg h2]
  | @crlf l t ls h1 _ ih =>
    have e : l ++ '\r' :: '\n' :: t = (l ++ ['\r']) ++ '\n' :: t := by simp
    have hn : '\n' ∉ l ++ ['\r'] := by
      rw [List.mem_append, not_or]
      exact ⟨h1, by decide⟩
    rw [e, fileLines_strip hn, ih]
    unfold stripCr
    rw [if_pos (by simp), List.dropLast_concat]

theorem first_break : ∀ (t : List Char), '\n' ∉ t ∨ ∃ l r, t = l ++ '\n' :: r ∧ '\n' ∉ l
  | [] => Or.inl (by simp)
  | c :: t => by
    by_cases hc : c = '\n'
    · subst hc; exact Or.inr ⟨[], t, rfl, by simp⟩
    · rcases first_break t with h | ⟨l, r, rfl, h⟩
      · left
        rw [List.mem_cons, not_or]
        exact ⟨Ne.symm hc, h⟩
      · right
        refine ⟨c :: l, r, rfl, ?_⟩
        rw [List.mem_cons, not_or]
        exact ⟨Ne.symm hc, h⟩

theorem has_lines : ∀ (n : Nat) (t : List Char), t.length ≤ n → ∃ ls, TextLines t ls
  | 0, t, h => by
    rw [List.length_eq_zero_iff.1 (Nat.le_zero.1 h)]
    exact ⟨[], .nil⟩
  | n + 1, t, h => by
    rcases first_break t with h1 | ⟨l, r, rfl, h1⟩
    · by_cases h2 : t = []
      · rw [h2]; exact ⟨[], .nil⟩
      · exact ⟨[t], .last h2 h1⟩
    · obtain ⟨ls, hls⟩ := has_lines n r (by rw [List.length_append, List.length_cons] at h; omega)
      by_cases h2 : l.getLast? = some '\r'
      · obtain ⟨l', rfl⟩ : ∃ l', l = l' ++ ['\r'] := by
          obtain ⟨l', hl⟩ := List.getLast?_eq_some_iff.1 h2
          exact ⟨l', hl⟩
        rw [List.append_assoc]
        exact ⟨_, .crlf (fun hc => h1 (List.mem_append_left _ hc)) hls⟩
      · exact ⟨_, .lf h1 h2 hls⟩

theorem lines_iff (t : List Char) (ls : List (List Char)) : fileLines t = ls ↔ TextLines t ls := by
  constructor
  · rintro rfl
    obtain ⟨ls, h⟩ := has_lines t.length t (Nat.le_refl _)
    rw [lines_of h]; exact h
  · exact lines_of

/-! ### Whole files -/

theorem load_iff (t : List Char) (v : Vsri) : load t = .ok v ↔ ∃ ls, TextLines t ls ∧ IndexLines ls v := by
  have e : load t = .ok v ↔ IndexLines (fileLines t) v := by
    obtain ⟨mn, mx, ss⟩ := v
    unfold load
    match fileLines t with
    | [] =>
      simp only [IndexLines, Except.ok.injEq, Vsri.mk.injEq]
      constructor
      · rintro ⟨rfl, rfl, rfl⟩; exact ⟨rfl, rfl, rfl⟩
      · rintro ⟨rfl, rfl, rfl⟩; exact ⟨rfl, rfl, rfl⟩
    | [a] =>
      dsimp only [IndexLines]
      rw [mapM_except_iff.stop_bind', ← parseField_iff]
      constructor
      · rintro ⟨x, h1, h2⟩
        have h2 := Except.ok.inj h2
        rw [Vsri.mk.injEq] at h2
        obtain ⟨rfl, rfl, rfl⟩ := h2
        exact ⟨h1, rfl, rfl⟩
      · rintro ⟨h1, rfl, rfl⟩; exact ⟨mn, h1, rfl⟩
    | a :: b :: ls =>
      dsimp only [IndexLines]
      have e3 : List.Forall₂ SegmentLine ls ss ↔ ls.mapM parseSeg = .ok ss := by
        rw [mapM_except_iff]
        have : (fun a b => parseSeg a = .ok b) = SegmentLine := by
          funext a b
          exact propext (parseSeg_iff a b)
        rw [this]
      rw [← parseField_iff, ← parseField_iff, e3, mapM_except_iff.stop_bind']
      constructor
      · rintro ⟨x, h1, h2⟩
        obtain ⟨y, h3, h4⟩ := mapM_except_iff.stop_bind'.1 h2
        obtain ⟨z, h5, h6⟩ := mapM_except_iff.stop_bind'.1 h4
        have h6 := Except.ok.inj h6
        rw [Vsri.mk.injEq] at h6
        obtain ⟨rfl, rfl, rfl⟩ := h6
        exact ⟨h1, h3, h5⟩
      · rintro ⟨h1, h2, h3⟩
        exact ⟨mn, h1, mapM_except_iff.stop_bind'.2 ⟨mx, h2, mapM_except_iff.stop_bind'.2 ⟨ss, h3, rfl⟩⟩⟩
  rw [e]
  constructor
  · exact fun h => ⟨_, (lines_iff t _).1 rfl, h⟩
  · rintro ⟨ls, h1, h2⟩; rw [lines_of h1]; exact h2

theorem load_error (t : List Char) : (∃ v, load t = .ok v) ∨ load t = .error .unwrap := by
  unfold load
  match fileLines t with
  | [] => exact Or.inl ⟨_, rfl⟩
  | [a] =>
    dsimp only
    rcases parseField_error a with ⟨n, h⟩ | h <;> rw [h]
    · exact Or.inl ⟨_, rfl⟩
    · exact Or.inr rfl
  | a :: b :: ls =>
    dsimp only
    rcases parseField_error a with ⟨n, h⟩ | h <;> rw [h]
    · rcases parseField_error b with ⟨k, h'⟩ | h' <;> rw [h']
      · rcases mapM_except_error (f := parseSeg) (e := .unwrap) (l := ls) fun a _ => parseSeg_error a with ⟨r, hr⟩ | hr <;> rw [hr]
        · exact Or.inl ⟨_, rfl⟩
        · exact Or.inr rfl
      · exact Or.inr rfl
    · exact Or.inr rfl

theorem byteLines_decode : ∀ (bs acc : Bytes), (∀ l ∈ byteLines acc bs, ∃ t, l = textBytes t) → ∃ t, acc ++ bs = textBytes t
  | [], acc, h => by
    rw [byteLines] at h
    by_cases ha : acc = []
    · rw [ha]; exact ⟨[], rfl⟩
    · rw [if_neg ha] at h
      rw [List.append_nil]
      exact h acc (by simp)
  | b :: bs, acc, h => by
    rw [byteLines] at h
    by_cases hb : b = 10
    · rw [if_pos hb] at h
      obtain ⟨t1, h1⟩ := h _ List.mem_cons_self
      obtain ⟨t2, h2⟩ := byteLines_decode bs [] fun l hl => h l (List.mem_cons_of_mem _ hl)
      rw [List.nil_append] at h2
      have hlf : (10 : UInt8) :: bs = textBytes ('\n' :: t2) := by
        rw [textBytes_cons, ← h2]; rfl
      by_cases hc : acc.getLast? = some 13
      · rw [if_pos hc] at h1
        obtain ⟨l', hl⟩ := List.getLast?_eq_some_iff.1 hc
        rw [hl, List.dropLast_concat] at h1
        refine ⟨t1 ++ '\r' :: '\n' :: t2, ?_⟩
        rw [hl, hb, hlf, textBytes_append, ← h1, List.append_assoc, textBytes_cons '\r']
        rfl
      · rw [if_neg hc] at h1
        refine ⟨t1 ++ '\n' :: t2, ?_⟩
        rw [hb, hlf, textBytes_append, ← h1]
    · rw [if_neg hb] at h
      obtain ⟨t, ht⟩ := byteLines_decode bs (acc ++ [b]) h
      exact ⟨t, by rw [← ht, List.append_assoc]; rfl⟩

theorem loadLines_decode : ∀ (ls : List Bytes) (i : Nat) (v w : Vsri), loadLines i v ls = .ok (some w) → ∀ l ∈ ls, ∃ t, l = textBytes t
  | [], _, _, _, _ => fun l hl => by cases hl
  | b :: ls, i, v, w, h => by
    rw [loadLines] at h
    cases hd : utf8Dec b with
    | none => rw [hd] at h; cases h
    | some t =>
      rw [hd] at h
      dsimp only at h
      have hr : ∃ j u, loadLines j u ls = .ok (some w) := by
        split at h
        · obtain ⟨_, _, h2⟩ := mapM_except_iff.stop_bind'.1 h; exact ⟨_, _, h2⟩
        · split at h
          · obtain ⟨_, _, h2⟩ := mapM_except_iff.stop_bind'.1 h; exact ⟨_, _, h2⟩
          · obtain ⟨_, _, h2⟩ := mapM_except_iff.stop_bind'.1 h; exact ⟨_, _, h2⟩
      obtain ⟨j, u, h2⟩ := hr
      intro l hl
      rcases List.mem_cons.1 hl with rfl | hl
      · exact ⟨t, (utf8_iff _ _).1 hd⟩
      · exact loadLines_decode ls j u w h2 l hl

theorem loadLines_ends : ∀ (ls : List Bytes) (i : Nat) (v : Vsri), (∃ o, loadLines i v ls = .ok o) ∨ loadLines i v ls = .error .unwrap
  | [], _, v => Or.inl ⟨some v, rfl⟩
  | b :: ls, i, v => by
    rw [loadLines]
    cases utf8Dec b with
    | none => exact Or.inl ⟨none, rfl⟩
    | some t =>
      dsimp only
      split
      · rcases parseField_error t with ⟨n, h⟩ | h <;> rw [h]
        · exact loadLines_ends ls _ _
        · exact Or.inr rfl
      · split
        · rcases parseField_error t with ⟨n, h⟩ | h <;> rw [h]
          · exact loadLines_ends ls _ _
          · exact Or.inr rfl
        · rcases parseSeg_error t with ⟨n, h⟩ | h <;> rw [h]
          · exact loadLines_ends ls _ _
          · exact Or.inr rfl

/-- **C105. Which files are index files**: `load` returns the index `v` exactly for the UTF-8 texts whose lines hold its two extremes and then its
segments, four fields each; the integers may have a sign, leading zeros and white space around them, lines may end with or without a carriage return,
and the last one may lack its end. -/
theorem C105_exact (file : Bytes) (v : Vsri) :
    loadFile file = .ok (some v) ↔ ∃ text ls, file = textBytes text ∧ TextLines text ls ∧ IndexLines ls v := by
  constructor
  · intro h
    obtain ⟨text, ht⟩ := byteLines_decode file [] (loadLines_decode _ _ _ _ h)
    rw [List.nil_append] at ht
    rw [ht, loadFile_text] at h
    cases hl : load text with
    | error e => rw [hl] at h; cases h
    | ok w =>
      rw [hl] at h
      obtain rfl := Option.some.inj (Except.ok.inj h)
      obtain ⟨ls, h1, h2⟩ := (load_iff text w).1 hl
      exact ⟨text, ls, ht, h1, h2⟩
  · rintro ⟨text, ls, rfl, h1, h2⟩
    rw [loadFile_text, (load_iff text v).2 ⟨ls, h1, h2⟩]
    rfl

/-- Every other file is refused: with a panic, or - only if it is not UTF-8 - with an error. -/
theorem C105_others (file : Bytes) (h : ∀ v, loadFile file ≠ .ok (some v)) :
    loadFile file = .error .unwrap ∨ loadFile file = .ok none ∧ ∀ text, file ≠ textBytes text := by
  rcases loadLines_ends (byteLines [] file) 1 { minTs := 0, maxTs := 0, segs := [] } with ⟨o, ho⟩ | ho
  · cases o with
    | some v => exact absurd ho (h v)
    | none =>
      refine Or.inr ⟨ho, ?_⟩
      rintro text rfl
      have e := loadFile_text text
      rw [show loadFile (textBytes text) = .ok none from ho] at e
      cases hl : load text with
      | error x => rw [hl] at e; cases e
      | ok v => rw [hl] at e; cases e
  · exact Or.inl ho

/-- An index file holds one index: reading is unambiguous. -/
theorem C105_unambiguous (text : List Char) (ls ls' : List (List Char)) (v v' : Vsri) (h1 : TextLines text ls) (h2 : IndexLines ls v) (h1' : TextLines text ls')
    (h2' : IndexLines ls' v') : v = v' := by
  have e := (load_iff text v).2 ⟨ls, h1, h2⟩
  rw [(load_iff text v').2 ⟨ls', h1', h2'⟩] at e
  exact (Except.ok.inj e).symm

/-- `get_sample_location` on any index file: `None` for a time before its first or after its last extreme, and otherwise what the index answers. -/
theorem C105_location (p : Profile) (text : List Char) (ls : List (List Char)) (v : Vsri) (h1 : TextLines text ls) (h2 : IndexLines ls v) (t : Int) :
    (v.minTs ≤ t → t ≤ v.maxTs → sampleLocation p (some (textBytes text)) t = v.getSample p t) ∧
    (t < v.minTs ∨ v.maxTs < t → sampleLocation p (some (textBytes text)) t = .ok none) := by
  have e := (C105_exact (textBytes text) v).2 ⟨text, ls, rfl, h1, h2⟩
  have e' : sampleLocation p (some (textBytes text)) t = if v.min ≤ t ∧ t ≤ v.max then v.getSample p t else .ok none := by
    unfold sampleLocation
    dsimp only
    rw [e]; rfl
  rw [e']
  refine ⟨fun g1 g2 => if_pos ⟨g1, g2⟩, fun g => if_neg ?_⟩
  rintro ⟨g1, g2⟩
  have g1 : v.minTs ≤ t := g1
  have g2 : t ≤ v.maxTs := g2
  omega

/-! ### Examples -/

/-- A file with carriage returns, signs, leading zeros and white space: `" +7\r\n0095\t\r\n10, 0,-5 ,\u20039"`. -/
def handText : List Char := " +7\r\n0095\t\r\n10, 0,-5 ,\u20039".toList

theorem hand_lines : TextLines handText [" +7".toList, "0095\t".toList, "10, 0,-5 ,\u20039".toList] := by
  rw [← lines_iff]
  decide +kernel

theorem hand_index : IndexLines [" +7".toList, "0095\t".toList, "10, 0,-5 ,\u20039".toList] ⟨7, 95, [⟨10, 0, -5, 9⟩]⟩ := by
  refine ⟨(parseField_iff _ _).1 (by decide +kernel), (parseField_iff _ _).1 (by decide +kernel), .cons ((parseSeg_iff _ _).1 (by decide +kernel)) .nil⟩

example : loadFile (textBytes handText) = .ok (some ⟨7, 95, [⟨10, 0, -5, 9⟩]⟩) :=
  (C105_exact _ _).2 ⟨_, _, rfl, hand_lines, hand_index⟩

example : sampleLocation .debug (some (textBytes handText)) 25 = .ok (some 3) ∧ sampleLocation .debug (some (textBytes handText)) 5 = .ok none := by
  decide +kernel

/-- An empty line, three fields, and a byte that is not UTF-8. -/
example : loadFile [55, 10, 10] = .error .unwrap ∧ loadFile (textBytes "1\n2\n3,4,5\n".toList) = .error .unwrap ∧ loadFile [55, 10, 0xFF] = .ok none := by decide +kernel

end Atsc
