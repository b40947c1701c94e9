import Verif.Model.Path
import Verif.Spec.Path
import Mathlib.Data.List.TakeWhile
/- Lemmas about path texts. -/
namespace Atsc

theorem skipEnd_trail {t : List Char} (h : Trail t) : ∀ r, skipEnd (t.reverse ++ r) = skipEnd r := by
  induction h with
  | nil => intro r; rfl
  | slash _ ih => intro r; rw [List.reverse_append]; exact ih r
  | dot _ ih => intro r; rw [List.reverse_append]; exact ih r

/-- Nothing more to skip. -/
def Settled (r : List Char) : Prop := (∀ x, r ≠ '/' :: x) ∧ ∀ x, r ≠ '.' :: '/' :: x

theorem skipEnd_settled {r : List Char} (h : Settled r) : skipEnd r = r := by
  rw [skipEnd.eq_def]
  split
  · exact absurd rfl (h.1 _)
  · exact absurd rfl (h.2 _)
  · rfl

theorem skipEnd_split : ∀ (r : List Char), ∃ t, Trail t ∧ r = t.reverse ++ skipEnd r ∧ Settled (skipEnd r) := by
  intro r
  induction r using skipEnd.induct with
  | case1 r ih =>
    obtain ⟨t, ht, h1, h2⟩ := ih
    refine ⟨t ++ ['/'], .slash ht, ?_, ?_⟩
    · rw [skipEnd, List.reverse_append]; exact congrArg ('/' :: ·) h1
    · rw [skipEnd]; exact h2
  | case2 r ih =>
    obtain ⟨t, ht, h1, h2⟩ := ih
    refine ⟨t ++ ['/', '.'], .dot ht, ?_, ?_⟩
    · rw [skipEnd, List.reverse_append]; exact congrArg (fun x => '.' :: '/' :: x) h1
    · rw [skipEnd]; exact h2
  | case3 r h1 h2 =>
    have hs : Settled r := ⟨fun x hx => h1 x hx, fun x hx => h2 x hx⟩
    exact ⟨[], .nil, (skipEnd_settled hs).symm, by rw [skipEnd_settled hs]; exact hs⟩

theorem takeWhile_dir {dir name : List Char} (hd : dir = [] ∨ ∃ d, dir = d ++ ['/']) (hs : '/' ∉ name) :
    ((dir ++ name).reverse.takeWhile (· != '/')).reverse = name ∧ ((dir ++ name).reverse.dropWhile (· != '/')).reverse = dir := by
  have hall : ∀ c ∈ name.reverse, (c != '/') = true := by
    intro c hc
    rw [List.mem_reverse] at hc
    rw [bne_iff_ne]
    rintro rfl
    exact hs hc
  rw [List.reverse_append, List.takeWhile_append_of_pos hall, List.dropWhile_append_of_pos hall]
  rcases hd with rfl | ⟨d, rfl⟩
  · simp
  · rw [List.reverse_append]
    simp

theorem Names.settled {s dir name : List Char} (h : Names s dir name) : Settled s.reverse := by
  obtain ⟨rfl, hd, hs, hne, hh, _⟩ := h
  rw [List.reverse_append]
  have hn : name.reverse ≠ [] := by simpa using hne
  constructor
  · intro x hx
    cases hr : name.reverse with
    | nil => exact hn hr
    | cons c r =>
      rw [hr] at hx
      have : c = '/' := (List.cons.inj hx).1
      exact hs (by rw [← List.mem_reverse, hr, this]; exact List.mem_cons_self)
  · intro x hx
    cases hr : name.reverse with
    | nil => exact hn hr
    | cons c r =>
      rw [hr] at hx
      obtain ⟨h1, h2⟩ := List.cons.inj hx
      cases hr' : r with
      | nil =>
        rw [hr', h1] at hr
        exact hh (by rw [← List.reverse_reverse name, hr]; rfl)
      | cons e r' =>
        rw [hr'] at h2
        exact hs (by rw [← List.mem_reverse, hr, hr', (List.cons.inj h2).1]; exact List.mem_cons_of_mem _ List.mem_cons_self)

/-- The file name of a path, and the text in front. -/
theorem fileName_names {s dir name t : List Char} (h : Names s dir name) (ht : Trail t) : fileName (s ++ t) = some (dir, name) := by
  unfold fileName
  have hk : skipEnd (s ++ t).reverse = s.reverse := by rw [List.reverse_append, skipEnd_trail ht, skipEnd_settled h.settled]
  obtain ⟨g1, g2⟩ := takeWhile_dir h.dir h.slash
  rw [← h.text] at g1 g2
  dsimp only
  rw [hk, g1, g2, if_neg (by rintro (h' | h' | h'); exacts [h.ne h', h.here h', h.up h'])]

/-- What a file name found in a path means. -/
theorem fileName_some {s dir name : List Char} (h : fileName s = some (dir, name)) : ∃ t, Trail t ∧ Names (dir ++ name) dir name ∧ s = dir ++ name ++ t := by
  unfold fileName at h
  dsimp only at h
  obtain ⟨t, ht, h1, h2⟩ := skipEnd_split s.reverse
  generalize skipEnd s.reverse = r at h h1 h2
  split at h
  · cases h
  · rename_i hn
    have h' := Option.some.inj h
    obtain ⟨hd, hm⟩ := Prod.mk.inj h'
    rw [not_or, not_or, hm] at hn
    have hr : r.reverse = dir ++ name := by
      rw [← hd, ← hm, ← List.reverse_append, List.takeWhile_append_dropWhile]
    refine ⟨t, ht, ⟨rfl, ?_, ?_, hn.1, hn.2.1, hn.2.2⟩, ?_⟩
    · cases hq : r.dropWhile (· != '/') with
      | nil => left; rw [← hd, hq]; rfl
      | cons c q =>
        right
        have hc := List.head_dropWhile_not (l := r) (· != '/') (by rw [hq]; exact List.cons_ne_nil _ _)
        simp only [hq, List.head_cons, bne_eq_false_iff_eq] at hc
        exact ⟨q.reverse, by rw [← hd, hq, hc, List.reverse_cons]⟩
    · rw [← hm, List.mem_reverse]
      intro hc
      have := List.mem_takeWhile_imp hc
      simp at this
    · rw [← hr, ← List.reverse_reverse s, h1, List.reverse_append, List.reverse_reverse]

theorem fileName_none_iff {s : List Char} : fileName s = none ↔ NoName s := by
  constructor
  · intro h
    unfold fileName at h
    dsimp only at h
    obtain ⟨t, ht, h1, h2⟩ := skipEnd_split s.reverse
    have hs : s = (skipEnd s.reverse).reverse ++ t := by
      conv_lhs => rw [← List.reverse_reverse s, h1, List.reverse_append, List.reverse_reverse]
    generalize skipEnd s.reverse = r at h h1 h2 hs
    split at h
    · rename_i hn
      have hr : r.takeWhile (· != '/') ++ r.dropWhile (· != '/') = r := List.takeWhile_append_dropWhile
      have hdw : r.dropWhile (· != '/') = [] ∨ ∃ q, r.dropWhile (· != '/') = '/' :: q := by
        cases hq : r.dropWhile (· != '/') with
        | nil => exact Or.inl rfl
        | cons c q =>
          right
          have hc := List.head_dropWhile_not (l := r) (· != '/') (by rw [hq]; exact List.cons_ne_nil _ _)
          simp only [hq, List.head_cons, bne_eq_false_iff_eq] at hc
          exact ⟨q, by rw [hc]⟩
      rcases hn with hn | hn | hn
      · rw [List.reverse_eq_nil_iff] at hn
        rw [hn, List.nil_append] at hr
        rcases hdw with h0 | ⟨q, h0⟩
        · rw [h0] at hr; subst hr; rw [hs]; exact .root ht
        · rw [h0] at hr; exact absurd hr.symm (h2.1 _)
      · rw [List.reverse_eq_iff] at hn
        rw [hn] at hr
        rcases hdw with h0 | ⟨q, h0⟩
        · rw [h0] at hr; subst hr; rw [hs]; exact .here ht
        · rw [h0] at hr; exact absurd hr.symm (h2.2 _)
      · rw [List.reverse_eq_iff] at hn
        rw [hn] at hr
        rcases hdw with h0 | ⟨q, h0⟩
        · rw [h0] at hr; subst hr; rw [hs]; exact .up (dir := []) (Or.inl rfl) ht
        · rw [h0] at hr
          rw [hs, ← hr]
          have : ((['.', '.'] : List Char).reverse ++ '/' :: q).reverse ++ t = (q.reverse ++ ['/']) ++ '.' :: '.' :: t := by simp
          rw [this]
          exact .up (Or.inr ⟨_, rfl⟩) ht
    · cases h
  · intro h
    cases h with
    | root ht =>
      unfold fileName
      have := skipEnd_trail ht []
      rw [List.append_nil] at this
      dsimp only
      rw [this]
      exact if_pos (Or.inl rfl)
    | @here t ht =>
      unfold fileName
      have := skipEnd_trail ht ['.']
      dsimp only
      rw [List.reverse_cons, this]
      rfl
    | @up dir t hd ht =>
      unfold fileName
      have hk : skipEnd (dir ++ '.' :: '.' :: t).reverse = (dir ++ ['.', '.']).reverse := by
        have e : dir ++ '.' :: '.' :: t = (dir ++ ['.', '.']) ++ t := by simp
        rw [e, List.reverse_append, skipEnd_trail ht]
        refine skipEnd_settled ⟨fun x hx => ?_, fun x hx => ?_⟩
        · rw [List.reverse_append] at hx; exact absurd (List.cons.inj hx).1 (by decide)
        · rw [List.reverse_append] at hx; exact absurd (List.cons.inj (List.cons.inj hx).2).1 (by decide)
      obtain ⟨g1, _⟩ := takeWhile_dir (name := ['.', '.']) hd (by decide)
      dsimp only
      rw [hk, g1]
      exact if_pos (Or.inr (Or.inr rfl))

/-! ### Stem and extension -/

theorem splitDot_parts {name stem : List Char} {ext : Option (List Char)} (h : NameParts name stem ext) : splitDot name = (stem, ext) := by
  unfold splitDot
  cases h with
  | @dotted _ ext hn he hs =>
    have hall : ∀ c ∈ ext.reverse, (c != '.') = true := by
      intro c hc
      rw [List.mem_reverse] at hc
      rw [bne_iff_ne]
      rintro rfl
      exact he hc
    have e : name.reverse = ext.reverse ++ '.' :: stem.reverse := by rw [hn]; simp
    rw [e, List.takeWhile_append_of_pos hall, List.dropWhile_append_of_pos hall]
    have hd : List.dropWhile (· != '.') ('.' :: stem.reverse) = '.' :: stem.reverse := by simp
    have ht : List.takeWhile (· != '.') ('.' :: stem.reverse) = [] := by simp
    rw [hd, ht]
    cases hr : stem.reverse with
    | nil => exact absurd (List.reverse_eq_nil_iff.mp hr) hs
    | cons c r =>
      dsimp only
      rw [← hr]
      simp
  | plain hp =>
    cases name with
    | nil => rfl
    | cons c r =>
      rw [List.tail_cons] at hp
      have hall : ∀ c ∈ r.reverse, (c != '.') = true := by
        intro c hc
        rw [List.mem_reverse] at hc
        rw [bne_iff_ne]
        rintro rfl
        exact hp hc
      rw [List.reverse_cons, List.dropWhile_append_of_pos hall]
      by_cases hc : c = '.'
      · subst hc; rfl
      · have : List.dropWhile (· != '.') [c] = [] := by simp [hc]
        rw [this]

theorem parts_splitDot (name : List Char) : NameParts name (splitDot name).1 (splitDot name).2 := by
  have hex : ∃ stem ext, NameParts name stem ext := by
    by_cases h : '.' ∈ name.tail
    · cases name with
      | nil => cases h
      | cons c r =>
        rw [List.tail_cons] at h
        have hr : '.' ∈ r.reverse := List.mem_reverse.mpr h
        obtain ⟨p, q, hpq, hp⟩ := List.eq_append_cons_of_mem hr
        refine ⟨c :: q.reverse, some p.reverse, .dotted ?_ (by rw [List.mem_reverse]; exact hp) (List.cons_ne_nil _ _)⟩
        rw [← List.reverse_reverse r, hpq]; simp
    · exact ⟨_, _, .plain h⟩
  obtain ⟨s, e, h⟩ := hex
  rw [splitDot_parts h]
  exact h

theorem setExtension_names {s dir name stem t e : List Char} {ext : Option (List Char)} (h : Names s dir name) (hp : NameParts name stem ext) (ht : Trail t) :
    setExtension (s ++ t) e = dir ++ stem ++ '.' :: e := by
  unfold setExtension
  rw [fileName_names h ht]
  dsimp only
  rw [splitDot_parts hp]

theorem NameParts.stem_ne {name stem : List Char} {ext : Option (List Char)} (h : NameParts name stem ext) (hn : name ≠ []) : stem ≠ [] := by
  cases h with
  | dotted _ _ h => exact h
  | plain _ => exact hn

theorem NameParts.stem_sub {name stem : List Char} {ext : Option (List Char)} (h : NameParts name stem ext) : ∀ c ∈ stem, c ∈ name := by
  cases h with
  | dotted h _ _ => intro c hc; rw [h]; exact List.mem_append_left _ hc
  | plain _ => exact fun c hc => hc

/-- The path written is a proper file name again. -/
theorem names_output {s dir name stem e : List Char} {ext : Option (List Char)} (h : Names s dir name) (hp : NameParts name stem ext)
    (he : '/' ∉ e) (hd : '.' ∉ e) (hne : e ≠ []) :
    Names (dir ++ stem ++ '.' :: e) dir (stem ++ '.' :: e) ∧ NameParts (stem ++ '.' :: e) stem (some e) := by
  have hs := hp.stem_ne h.ne
  have hlast : ∀ x, stem ++ '.' :: e ≠ x ++ ['.'] := by
    intro x hx
    have := congrArg List.getLast? hx
    rw [List.getLast?_append, List.getLast?_append] at this
    cases e with
    | nil => exact hne rfl
    | cons c r =>
      rw [List.getLast?_cons_cons] at this
      have hm : (c :: r).getLast? = some '.' := by
        cases hl : (c :: r).getLast? with
        | none => simp at hl
        | some y => rw [hl] at this; simpa using this
      exact hd (List.mem_of_getLast? hm)
  refine ⟨⟨by simp, h.dir, ?_, ?_, ?_, ?_⟩, .dotted rfl hd hs⟩
  · intro hc
    rcases List.mem_append.mp hc with hc | hc
    · exact h.slash (hp.stem_sub _ hc)
    · rcases List.mem_cons.mp hc with hc | hc
      · exact absurd hc (by decide)
      · exact he hc
  · simp
  · exact hlast []
  · exact hlast ['.']

/-- Directory and name are determined by the path. -/
theorem Names.unique {s d1 n1 d2 n2 : List Char} (h1 : Names s d1 n1) (h2 : Names s d2 n2) : d1 = d2 ∧ n1 = n2 := by
  have a := fileName_names h1 .nil
  rw [fileName_names h2 .nil] at a
  have := Prod.mk.inj (Option.some.inj a)
  exact ⟨this.1.symm, this.2.symm⟩

theorem NameParts.unique {n s1 s2 : List Char} {e1 e2 : Option (List Char)} (h1 : NameParts n s1 e1) (h2 : NameParts n s2 e2) : s1 = s2 ∧ e1 = e2 :=
  Prod.mk.inj ((splitDot_parts h1).symm.trans (splitDot_parts h2))

theorem names_join {dir name : List Char} (hs : '/' ∉ name) (hne : name ≠ []) (hh : name ≠ ['.']) (hu : name ≠ ['.', '.']) :
    ∃ d, (d = dir ∨ d = dir ++ ['/']) ∧ Names (joinPath dir name) d name := by
  unfold joinPath
  split_ifs with h
  · refine ⟨dir, Or.inl rfl, rfl, ?_, hs, hne, hh, hu⟩
    rcases h with h | h
    · exact Or.inl h
    · right
      have hn : dir ≠ [] := by rintro rfl; simp at h
      refine ⟨dir.dropLast, ?_⟩
      have := List.dropLast_append_getLast hn
      rw [List.getLast?_eq_some_getLast hn] at h
      rw [Option.some.inj h] at this
      exact this.symm
  · exact ⟨dir ++ ['/'], Or.inr rfl, by simp, Or.inr ⟨_, rfl⟩, hs, hne, hh, hu⟩

end Atsc
