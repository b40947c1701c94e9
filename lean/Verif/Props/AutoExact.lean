import Verif.Props.Auto
import Verif.Props.PolyReport
import Verif.Props.FftReport
import Verif.Props.Lossless
import Verif.Props.Sizes
/- C28, exactly: for which chunks error bound 0 is lossless. -/
namespace Atsc
open FP

theorem push_mem_key (k i : Nat) (m : BMap) : (∃ p ∈ BMap.push k i m, p.1 = k) ∧ ∀ q ∈ m, ∃ p ∈ BMap.push k i m, p.1 = q.1 := by
  induction m with
  | nil => exact ⟨⟨(k, [i]), by simp [BMap.push], rfl⟩, by simp⟩
  | cons a m ih =>
    obtain ⟨k', is⟩ := a
    unfold BMap.push
    split_ifs with h1 h2
    · exact ⟨⟨(k, [i]), by simp, rfl⟩, fun q hq => ⟨q, List.mem_cons_of_mem _ hq, rfl⟩⟩
    · refine ⟨⟨(k', is ++ [i]), by simp, h2.symm⟩, fun q hq => ?_⟩
      rcases List.mem_cons.1 hq with rfl | hq
      · exact ⟨(k', is ++ [i]), by simp, rfl⟩
      · exact ⟨q, List.mem_cons_of_mem _ hq, rfl⟩
    · obtain ⟨⟨p, p1, p2⟩, ih2⟩ := ih
      refine ⟨⟨p, List.mem_cons_of_mem _ p1, p2⟩, fun q hq => ?_⟩
      rcases List.mem_cons.1 hq with rfl | hq
      · exact ⟨(k', is), by simp, rfl⟩
      · obtain ⟨p, p1, p2⟩ := ih2 q hq
        exact ⟨p, List.mem_cons_of_mem _ p1, p2⟩

theorem push_key (k i : Nat) (m : BMap) : ∀ p ∈ BMap.push k i m, p.1 = k ∨ ∃ q ∈ m, q.1 = p.1 := by
  induction m with
  | nil => intro p hp; simp [BMap.push] at hp; exact .inl (by rw [hp])
  | cons a m ih =>
    obtain ⟨k', is⟩ := a
    unfold BMap.push
    split_ifs with h1 h2
    · intro p hp
      rcases List.mem_cons.1 hp with rfl | hp
      · exact .inl rfl
      · exact .inr ⟨p, hp, rfl⟩
    · intro p hp
      rcases List.mem_cons.1 hp with rfl | hp
      · exact .inl h2.symm
      · exact .inr ⟨p, List.mem_cons_of_mem _ hp, rfl⟩
    · intro p hp
      rcases List.mem_cons.1 hp with rfl | hp
      · exact .inr ⟨_, List.mem_cons_self, rfl⟩
      · rcases ih p hp with h | ⟨q, q1, q2⟩
        · exact .inl h
        · exact .inr ⟨q, List.mem_cons_of_mem _ q1, q2⟩

/-- The table has an entry equal to every sample, and keeps those it had. -/
theorem loop_has (i cur : Nat) (d : List F64) (m : BMap) (hn : ∀ x ∈ d, x.isNaN = false) :
    (∀ x ∈ d, ∃ p ∈ rleLoop i cur d m, (FP.ofBits p.1 : F64).feq x = true) ∧ ∀ q ∈ m, ∃ p ∈ rleLoop i cur d m, p.1 = q.1 := by
  fun_induction rleLoop i cur d m with
  | case1 => exact ⟨by simp, fun q hq => ⟨q, hq, rfl⟩⟩
  | case2 i cur v m =>
    refine ⟨fun x hx => ?_, (push_mem_key _ _ _).2⟩
    obtain rfl := List.mem_singleton.1 hx
    obtain ⟨p, p1, p2⟩ := (push_mem_key x.toBits cur m).1
    exact ⟨p, p1, by rw [p2, FP.ofBits_toBits]; exact feq_refl (hn x hx)⟩
  | case3 i cur v w rest m hc ih =>
    obtain ⟨h1, h2⟩ := ih (fun x hx => hn x (List.mem_cons_of_mem _ hx))
    refine ⟨fun x hx => ?_, fun q hq => ?_⟩
    · rcases List.mem_cons.1 hx with rfl | hx
      · obtain ⟨p, p1, p2⟩ := (push_mem_key x.toBits cur m).1
        obtain ⟨p', q1, q2⟩ := h2 p p1
        exact ⟨p', q1, by rw [q2, p2, FP.ofBits_toBits]; exact feq_refl (hn x (by simp))⟩
      · exact h1 x hx
    · obtain ⟨p, p1, p2⟩ := (push_mem_key v.toBits cur m).2 q hq
      obtain ⟨p', q1, q2⟩ := h2 p p1
      exact ⟨p', q1, q2.trans p2⟩
  | case4 i cur v w rest m hc ih =>
    obtain ⟨h1, h2⟩ := ih (fun x hx => hn x (List.mem_cons_of_mem _ hx))
    refine ⟨fun x hx => ?_, h2⟩
    rcases List.mem_cons.1 hx with rfl | hx
    · obtain ⟨p, p1, p2⟩ := h1 w (by simp)
      exact ⟨p, p1, feq_trans p2 (by simpa using hc)⟩
    · exact h1 x hx

/-- Every entry of the table is a sample. -/
theorem loop_from (i cur : Nat) (d : List F64) (m : BMap) :
    ∀ p ∈ rleLoop i cur d m, (FP.ofBits p.1 : F64) ∈ d ∨ ∃ q ∈ m, q.1 = p.1 := by
  fun_induction rleLoop i cur d m with
  | case1 => exact fun p hp => .inr ⟨p, hp, rfl⟩
  | case2 i cur v m =>
    intro p hp
    rcases push_key _ _ _ p hp with h | h
    · exact .inl (by rw [h, FP.ofBits_toBits]; simp)
    · exact .inr h
  | case3 i cur v w rest m hc ih =>
    intro p hp
    rcases ih p hp with h | ⟨q, q1, q2⟩
    · exact .inl (List.mem_cons_of_mem _ h)
    · rcases push_key _ _ _ q q1 with h | ⟨q', h1, h2⟩
      · exact .inl (by rw [← q2, h, FP.ofBits_toBits]; simp)
      · exact .inr ⟨q', h1, h2.trans q2⟩
  | case4 i cur v w rest m hc ih =>
    intro p hp
    rcases ih p hp with h | h
    · exact .inl (List.mem_cons_of_mem _ h)
    · exact .inr h

theorem encVar_pos (n : Nat) : 1 ≤ (encVar n).length := by
  unfold encVar; split_ifs <;> simp

theorem encVec_nonempty_len {is : List Nat} (h : is ≠ []) : 2 ≤ (encVec encVar is).length := by
  cases is with
  | nil => exact absurd rfl h
  | cons a is =>
    unfold encVec
    have := encVar_pos (a :: is).length
    have := encVar_pos a
    simp only [List.length_append, List.map_cons, List.flatten_cons]
    omega

theorem flatten_two {α β : Type} (f : α → List β) {p q : α} (hne : p ≠ q) : ∀ m : List α, p ∈ m → q ∈ m →
    (f p).length + (f q).length ≤ ((m.map f).flatten).length := by
  have one : ∀ (r : α) (m : List α), r ∈ m → (f r).length ≤ ((m.map f).flatten).length := by
    intro r m
    induction m with
    | nil => intro h; cases h
    | cons a m ih =>
      intro h
      simp only [List.map_cons, List.flatten_cons, List.length_append]
      rcases List.mem_cons.1 h with rfl | h
      · omega
      · have := ih h; omega
  intro m
  induction m with
  | nil => intro h; cases h
  | cons a m ih =>
    intro h1 h2
    simp only [List.map_cons, List.flatten_cons, List.length_append]
    rcases List.mem_cons.1 h1 with rfl | h1'
    · have := one q m ((List.mem_cons.1 h2).resolve_left (Ne.symm hne)); omega
    · rcases List.mem_cons.1 h2 with rfl | h2'
      · have := one p m h1'; omega
      · have := ih h1' h2'; omega

/-- An RLE frame with two different values, each written with two bytes or more, has at least eleven bytes. -/
theorem rle_long {data : List F64} (hn : ∀ x ∈ data, x.isNaN = false) {bd : Bitdepth} {x y : F64} (hx : x ∈ data) (hy : y ∈ data)
    (hxy : x.feq y = false) (hw : ∀ v ∈ data, 2 ≤ (encValue bd v).length) : 11 ≤ (IndexRLE.new data bd).enc.length := by
  obtain ⟨h1, -⟩ := loop_has 0 0 data [] hn
  have h2 := loop_nonempty 0 0 data [] (by simp)
  have h3 : ∀ p ∈ rleLoop 0 0 data [], (FP.ofBits p.1 : F64) ∈ data := fun p hp => by
    rcases loop_from 0 0 data [] p hp with h | ⟨q, q1, _⟩
    · exact h
    · cases q1
  obtain ⟨p, p1, p2⟩ := h1 x hx
  obtain ⟨q, q1, q2⟩ := h1 y hy
  have hne : p ≠ q := by
    rintro rfl
    have : x.feq y = true := feq_trans (feq_symm p2) q2
    rw [this] at hxy; cases hxy
  unfold IndexRLE.enc IndexRLE.new encVec
  have hbd : 1 ≤ (encBitdepth bd).length := by cases bd <;> exact encVar_pos _
  simp only [List.length_append, List.length_map, encU8, List.length_singleton, List.map_map]
  have hv := encVar_pos (rleLoop 0 0 data []).length
  have := flatten_two ((fun p : F64 × List Nat => encValue bd p.1 ++ (encVar p.2.length ++ (p.2.map encVar).flatten)) ∘ fun p : Nat × List Nat => (FP.ofBits p.1, p.2))
    hne _ p1 q1
  have l1 : 4 ≤ (((fun p : F64 × List Nat => encValue bd p.1 ++ (encVar p.2.length ++ (p.2.map encVar).flatten)) ∘ fun p : Nat × List Nat => (FP.ofBits p.1, p.2)) p).length := by
    have g1 := hw _ (h3 p p1)
    have g2 := encVec_nonempty_len (h2 p p1)
    unfold encVec at g2
    simp only [Function.comp, List.length_append] at g2 ⊢
    omega
  have l2 : 4 ≤ (((fun p : F64 × List Nat => encValue bd p.1 ++ (encVar p.2.length ++ (p.2.map encVar).flatten)) ∘ fun p : Nat × List Nat => (FP.ofBits p.1, p.2)) q).length := by
    have g1 := hw _ (h3 q q1)
    have g2 := encVec_nonempty_len (h2 q q1)
    unfold encVec at g2
    simp only [Function.comp, List.length_append] at g2 ⊢
    omega
  omega

/-- Two different integers below 2^16 and above are told apart in single precision. -/
theorem single_int {x y : F64} (hx : x.isFinite = true) (hy : y.isFinite = true) {n k : ℤ} (hn : n.natAbs ≤ 2 ^ 16) (hxn : x.val = n) (hyk : y.val = k)
    (h : x.val ≠ y.val) : (FP.cvt x : F32).lt (FP.cvt y) = true ∨ (FP.cvt y : F32).lt (FP.cvt x) = true := by
  have hne : n ≠ k := by rintro rfl; exact h (hxn.trans hyk.symm)
  have hb : ∀ m : ℤ, m.natAbs ≤ 2 ^ 16 + 1 → ∀ z : F64, z.isFinite = true → z.val = m → |(FP.cvt z : F32).val - m| ≤ 1 / 4 := by
    intro m hm z hz hzm
    have hq : |(m : ℚ)| ≤ 2 ^ 17 := by
      rw [← Int.cast_abs, Int.abs_eq_natAbs]
      have : ((m.natAbs : ℤ) : ℚ) ≤ ((2 ^ 17 : ℤ) : ℚ) := by exact_mod_cast (by omega : m.natAbs ≤ 2 ^ 17)
      refine le_trans this (by norm_num)
    have := (narrow_err hz (by rw [hzm]; exact le_trans hq (by norm_num))).2
    rw [hzm] at this
    refine le_trans this (max_le (by norm_num) ?_)
    rw [div_le_iff₀ (by norm_num)]
    exact le_trans hq (by norm_num)
  have h1 := hb n (by omega) x hx hxn
  rcases lt_or_gt_of_ne hne with hlt | hlt
  · left
    have e := lit_val (n := n + 1) (by omega)
    have h2 := hb (n + 1) (by omega) _ e.1 (by rw [e.2])
    have hle : (F64.lit (n + 1)).le y = true := le_iff.2 ⟨isFinite_not_nan e.1, isFinite_not_nan hy, (val_le_iff (by decide)).1 (by
      rw [e.2, hyk]; exact_mod_cast hlt)⟩
    have h3 := cvt_mono (mb' := 23) (eb' := 8) infMag64_pos hle
    obtain ⟨c1, c2, c3⟩ := le_iff.1 h3
    refine lt_iff.2 ⟨cvt_not_nan (isFinite_not_nan hx), c2, ?_⟩
    refine lt_of_lt_of_le ((val_lt_iff (by decide)).1 ?_) c3
    rw [abs_le] at h1 h2
    push_cast at h2
    linarith [h1.2, h2.1]
  · right
    have e := lit_val (n := n - 1) (by omega)
    have h2 := hb (n - 1) (by omega) _ e.1 (by rw [e.2])
    have hle : y.le (F64.lit (n - 1)) = true := le_iff.2 ⟨isFinite_not_nan hy, isFinite_not_nan e.1, (val_le_iff (by decide)).1 (by
      rw [e.2, hyk]; exact_mod_cast (by omega : k ≤ n - 1))⟩
    have h3 := cvt_mono (mb' := 23) (eb' := 8) infMag64_pos hle
    obtain ⟨c1, c2, c3⟩ := le_iff.1 h3
    refine lt_iff.2 ⟨c1, cvt_not_nan (isFinite_not_nan hx), ?_⟩
    refine lt_of_le_of_lt c3 ((val_lt_iff (by decide)).1 ?_)
    rw [abs_le] at h1 h2
    push_cast at h2
    linarith [h1.1, h2.2]

/-- In a chunk of different values that single precision cannot tell apart, every sample takes at least two bytes. -/
theorem collapsed_wide {data : List F64} (hfin : AllFinite data) (hr : ∀ x ∈ data, InRange x) (hone : OneSingle data)
    {a b : F64} (ha : a ∈ data) (hb : b ∈ data) (hab : a.val ≠ b.val) {st : DataStats} (hst : DataStats.new data = .ok st) :
    ∀ v ∈ data, 2 ≤ (encValue st.bitdepth v).length := by
  intro v hv
  by_cases hbd : st.bitdepth = .f64
  · rw [hbd]; show 2 ≤ (leBytes 8 _).length
    rw [leBytes_length]; omega
  · obtain ⟨w, hw, hvw⟩ : ∃ w ∈ data, v.val ≠ w.val := by
      by_cases h : v.val = a.val
      · exact ⟨b, hb, by rw [h]; exact hab⟩
      · exact ⟨a, ha, h⟩
    obtain ⟨n, -, hn⟩ := castBD_integer hbd v
    obtain ⟨k, -, hk⟩ := castBD_integer hbd w
    have hvn : v.val = n := by rw [← hn]; exact (castBD_val hfin hr hst hv).1.symm
    have hwk : w.val = k := by rw [← hk]; exact (castBD_val hfin hr hst hw).1.symm
    have hbig : 2 ^ 16 < n.natAbs := by
      by_contra hsm
      rcases single_int (hfin v hv) (hfin w hw) (by omega) hvn hwk hvw with h | h
      · rw [hone v hv w hw] at h; cases h
      · rw [hone w hw v hv] at h; cases h
    have hlit : ∀ lo hi : Int, lo ≤ 0 → 0 ≤ hi → -2 ^ 31 ≤ lo → hi ≤ 2 ^ 31 → (F64.lit (v.toInt lo hi)).val = n → v.toInt lo hi = n := by
      intro lo hi h1 h2 h3 h4 h5
      have := toInt_bounds v (by omega : lo ≤ hi) h1 h2
      rw [(lit_val (by omega)).2] at h5
      exact_mod_cast h5
    have hsig : 2 ≤ (encSigned n).length := by
      have : 2 ^ 16 ≤ zigzag n := by unfold zigzag; split_ifs <;> omega
      unfold encSigned encVar
      rw [if_neg (by omega)]
      split_ifs <;> simp [leBytes_length]
    revert hn
    generalize st.bitdepth = bd at hbd ⊢
    intro hn
    cases bd with
    | f64 => exact absurd rfl hbd
    | i32 =>
      have := hlit (-2 ^ 31) (2 ^ 31 - 1) (by decide) (by decide) (by decide) (by decide) hn
      show 2 ≤ (encSigned (v.toInt (-2 ^ 31) (2 ^ 31 - 1))).length
      rw [this]; exact hsig
    | i16 =>
      have := hlit (-2 ^ 15) (2 ^ 15 - 1) (by decide) (by decide) (by decide) (by decide) hn
      show 2 ≤ (encSigned (v.toInt (-2 ^ 15) (2 ^ 15 - 1))).length
      rw [this]; exact hsig
    | u8 =>
      have h1 := hlit 0 255 (by decide) (by decide) (by decide) (by decide) hn
      have h2 := toInt_bounds v (by decide : (0 : Int) ≤ 255) (by decide) (by decide)
      omega

theorem fft_empty_len (st : DataStats) : (Fft.start st).enc.length = 10 := by
  show ((encU8 _ ++ encVec FreqPoint.enc [] ++ encF32 _ ++ encF32 _ : Bytes)).length = 10
  simp only [List.length_append, encF32_len, encU8, List.length_singleton]; rfl

/-- **C28, what is lost.** Whatever the bound: a chunk of different values (finite, zero or of magnitude in `[2^-64, 2^63)`) that are one number in
single precision is always stored by Auto as an FFT frame of ten bytes, which reads back as that number repeated. -/
theorem C28_collapsed (E : Ext) (hE : E.Lawful) (p : Profile) (s : Stream) (data : List F64) (hfin : AllFinite data) (hr : ∀ x ∈ data, InRange x)
    (x y : F64) (hx : x ∈ data) (hy : y ∈ data) (hxy : x.val ≠ y.val) (hone : OneSingle data)
    (e : F32) (he : (FP.zero : F32).le e = true) (speed : Nat) (hsp : speed ≤ 6) (hl : data.length < sampleSize speed) (g : Frame)
    (h : (ChunkOp.bounded data .auto e speed).Adds E p s g) :
    g.compressor = .fft ∧ g.data.length = 10 ∧ ∃ v : F32, (∀ z ∈ data, (FP.cvt z : F32).feq v = true) ∧
      g.decompress E = .ok (List.replicate data.length (FP.cvt v)) := by
  have hne : data ≠ [] := by rintro rfl; cases hx
  have hss := sampleSize_le speed
  have hn : ∀ y ∈ data, y.isNaN = false := fun y hy => isFinite_not_nan (hfin y hy)
  obtain ⟨⟨err, ⟨hrank, r', e1, e2, _⟩, _⟩, hbest⟩ := C26_smallest E hE p s data hfin x y hx hy hxy e he speed hsp hl g h
  obtain ⟨st, hst⟩ := stats_ok hne
  obtain ⟨c, r, w1, _, w2, w3⟩ := fft_bounded_cases E hE data hne (FP.cvt e) st hst
  have hfe := (oneSingle_iff hne hn hst).1 hone
  have hr10 : r.data.length = 10 ∧ r.error = FP.zero := by
    rcases w3 with ⟨_, rfl, w⟩ | ⟨w, _⟩ | ⟨w, _⟩
    · exact ⟨by rw [w2]; exact fft_empty_len st, w⟩
    · rw [hfe] at w; cases w
    · rw [hfe] at w; cases w
  have hle := (hbest .fft r.data r.error ⟨rfl, r, w1, rfl, rfl⟩ (by rw [hr10.2]; exact zero_le_cvt he)).1
  rw [hr10.1] at hle
  have hcount : g.sampleCount = data.length := by
    obtain ⟨f, hf, rfl⟩ := adds_inv h
    exact op_frame_count hf
  cases hcomp : g.compressor <;> rw [hcomp] at hrank e1 <;> simp only [Compressor.rank, Option.isSome_none, Bool.false_eq_true] at hrank
  · refine ⟨rfl, ?_, ?_⟩
    · rw [w1] at e1; obtain rfl := Except.ok.inj e1
      rw [← e2]; exact hr10.1
    · obtain ⟨q, q1, _, q2, _⟩ := C24_exact E hE data hne (by omega) hn (FP.cvt e)
      rw [e1] at q1; obtain rfl := Except.ok.inj q1
      obtain ⟨_, v, v1, v2⟩ := q2 hone
      refine ⟨v, v1, ?_⟩
      unfold Frame.decompress
      rw [hcomp, hcount, ← e2]; exact v2
  · exfalso
    have := poly_results_len hne e1
    rw [e2] at this; omega
  · exfalso
    simp only [Compressor.boundedResults, hst, ok_bind] at e1
    obtain rfl := Except.ok.inj e1
    have h11 := rle_long (bd := st.bitdepth) hn hx hy (by
      rw [Bool.eq_false_iff]; intro hc
      exact hxy ((val_eq_iff (by decide)).2 (feq_iff.1 hc).2.2)) (collapsed_wide hfin hr hone hx hy hxy hst)
    have e2' : (IndexRLE.new data st.bitdepth).enc = g.data := e2
    rw [e2'] at h11
    omega

theorem finite_of_val {x y : F64} (h : x.val = y.val) (hy : y.isFinite = true) : x.isFinite = true := by
  have h1 := val_scaled.1 h
  have h2 : x.absVal = y.absVal := by rw [← scaled_natAbs, ← scaled_natAbs, h1]
  have h3 : x.mag.val = y.mag.val := le_antisymm (magVal_le_iff.1 h2.le) (magVal_le_iff.1 h2.ge)
  unfold FP.isFinite at hy ⊢
  rw [h3]; exact hy

/-- **C28, exactly.** For every chunk of finite samples, zero or of magnitude in `[2^-64, 2^63)`, that Auto tries as a whole (shorter than the sample of the
level), with lawful libraries: with error bound 0, decompression gives back every value exactly when all samples are equal, or single precision can tell
two of them apart and, should Auto have taken a Polynomial frame with all the samples in it, rounding to five decimals loses none of them. -/
theorem C28_exact (E : Ext) (hE : E.Lawful) (hI : E.Interpolates) (p : Profile) (s : Stream) (data : List F64) (hne : data ≠ [])
    (hfin : AllFinite data) (hr : ∀ x ∈ data, InRange x) (speed : Nat) (hsp : speed ≤ 6) (hl : data.length < sampleSize speed) (g : Frame)
    (h : (ChunkOp.bounded data .auto FP.zero speed).Adds E p s g) :
    ∃ out, g.decompress E = .ok out ∧ (SameValues out data ↔ (∀ x ∈ data, ∀ y ∈ data, x.val = y.val) ∨
      (¬ OneSingle data ∧ (g.compressor = .polynomial → StoresAll data g.data → ∀ x ∈ data, Survives data x))) := by
  have hn : ∀ y ∈ data, y.isNaN = false := fun y hy => isFinite_not_nan (hfin y hy)
  have hss := sampleSize_le speed
  have hd := C28_lossless_partial E hE p s data hne hfin hr
  by_cases hcst : ∀ x ∈ data, ∀ y ∈ data, x.val = y.val
  · obtain ⟨out, o1, o2⟩ := hd (.inl hcst) speed hsp hl g h
    refine ⟨out, o1, ⟨fun _ => .inl hcst, fun _ => ?_⟩⟩
    rcases o2 with o2 | ⟨o2, _⟩
    · exact o2
    · rw [(C27_constant_iff E hE p s data hne hfin FP.zero speed g h).2 hcst] at o2; cases o2
  · obtain ⟨x, hx, y, hy, hxy⟩ : ∃ x ∈ data, ∃ y ∈ data, x.val ≠ y.val := by
      by_contra hno
      apply hcst
      intro a ha b hb
      by_contra hcc
      exact hno ⟨a, ha, b, hb, hcc⟩
    by_cases hone : OneSingle data
    · obtain ⟨_, _, v, _, v2⟩ := C28_collapsed E hE p s data hfin hr x y hx hy hxy hone FP.zero zero32_le speed hsp hl g h
      refine ⟨_, v2, ⟨fun hs => ?_, fun hs => ?_⟩⟩
      · exfalso
        obtain ⟨i, hi, rfl⟩ := List.getElem_of_mem hx
        obtain ⟨j, hj, rfl⟩ := List.getElem_of_mem hy
        have h1 := (hs.2 i (by rw [List.length_replicate]; exact hi) hi).1
        have h2 := (hs.2 j (by rw [List.length_replicate]; exact hj) hj).1
        rw [List.getElem_replicate] at h1 h2
        exact hxy (h1.symm.trans h2)
      · rcases hs with hs | hs
        · exact absurd hs hcst
        · exact absurd hone hs.1
    · have hdist : ∃ x ∈ data, ∃ y ∈ data, (FP.cvt x : F32).lt (FP.cvt y : F32) = true := by
        by_contra hno
        apply hone
        intro a ha b hb
        by_contra hcc
        exact hno ⟨a, ha, b, hb, by simpa using hcc⟩
      obtain ⟨out, o1, o2⟩ := hd (.inr hdist) speed hsp hl g h
      refine ⟨out, o1, ?_⟩
      by_cases hps : g.compressor = .polynomial ∧ StoresAll data g.data
      · obtain ⟨hc, hall⟩ := hps
        have hlt' : ∃ x' ∈ data, ∃ y' ∈ data, x'.lt y' = true := by
          rcases lt_or_gt_of_ne hxy with hlt | hlt
          · exact ⟨x, hx, y, hy, lt_iff.2 ⟨hn _ hx, hn _ hy, (val_lt_iff (by decide)).1 hlt⟩⟩
          · exact ⟨y, hy, x, hx, lt_iff.2 ⟨hn _ hy, hn _ hx, (val_lt_iff (by decide)).1 hlt⟩⟩
        obtain ⟨u, hu, v, hv, huv⟩ := hlt'
        obtain ⟨⟨err, ⟨_, r, r1, r2, _⟩, _⟩, _⟩ := C26_smallest E hE p s data hfin x y hx hy hxy FP.zero zero32_le speed hsp hl g h
        have hcb := results_compress r1
        rw [r2, hc] at hcb
        obtain ⟨out', q1, q2, q3⟩ := C19_exact E hI .polynomial data (by omega) hfin hr u v hu hv huv _ _ (Or.inr hcb) hall
        have hcount : g.sampleCount = data.length := by
          obtain ⟨f, hf, rfl⟩ := adds_inv h
          exact op_frame_count hf
        have q1 : Compressor.polynomial.decompress E data.length g.data = .ok out' := q1
        have : g.decompress E = .ok out' := by unfold Frame.decompress; rw [hcount, hc]; exact q1
        rw [o1] at this; obtain rfl := Except.ok.inj this
        constructor
        · intro hs
          refine .inr ⟨hone, fun _ _ z hz => ?_⟩
          obtain ⟨i, hi, rfl⟩ := List.getElem_of_mem hz
          exact (q3 i (by rw [q2.1]; exact hi) hi).1 (hs.2 i (by rw [q2.1]; exact hi) hi).1
        · rintro (hs | ⟨_, hs⟩)
          · exact absurd hs hcst
          · refine ⟨q2.1, fun i h1 h2 => ?_⟩
            have hv := (q3 i h1 h2).2 (hs hc hall _ (List.getElem_mem h2))
            refine ⟨hv, ?_, hfin _ (List.getElem_mem h2)⟩
            exact finite_of_val hv (hfin _ (List.getElem_mem h2))
      · have o2 := o2.resolve_right hps
        exact ⟨fun _ => .inr ⟨hone, fun h1 h2 => absurd ⟨h1, h2⟩ hps⟩, fun _ => o2⟩

/-- The hypotheses are met, and both answers occur: `[1, 9, 2]` comes back, `[2^24, 2^24 + 1]` does not. -/
example : (∃ g out, (ChunkOp.bounded [F64.lit 1, F64.lit 9, F64.lit 2] .auto FP.zero 0).Adds Ext.dummy .debug Stream.new g ∧ g.decompress Ext.dummy = .ok out ∧
      SameValues out [F64.lit 1, F64.lit 9, F64.lit 2]) ∧
    ∃ g out, (ChunkOp.bounded collapsedPair .auto FP.zero 0).Adds Ext.dummy .debug Stream.new g ∧ g.decompress Ext.dummy = .ok out ∧
      ¬ SameValues out collapsedPair := by
  constructor
  · obtain ⟨g, h1, -, -⟩ := C25_succeeds Ext.dummy Ext.dummy_lawful .debug Stream.new (fun _ => by decide) [F64.lit 1, F64.lit 9, F64.lit 2] (by decide) FP.zero
      zero32_le 0 (by decide)
    obtain ⟨out, o1, o2⟩ := C28_exact Ext.dummy Ext.dummy_lawful Ext.dummy_interpolates .debug Stream.new _ (by decide) (by unfold AllFinite; decide +kernel)
      (fun x hx => inRange_iff.2 (by unfold SplitSafe; revert x; decide +kernel)) 0 (by decide) (by decide) g h1
    refine ⟨g, out, h1, o1, o2.2 (.inr ⟨fun hone => ?_, fun _ _ x hx => .inl ?_⟩)⟩
    · have := hone (F64.lit 1) (by simp) (F64.lit 9) (by simp)
      revert this; decide +kernel
    · revert x; decide +kernel
  · obtain ⟨g, h1, -, -⟩ := C25_succeeds Ext.dummy Ext.dummy_lawful .debug Stream.new (fun _ => by decide) collapsedPair (by decide) FP.zero
      zero32_le 0 (by decide)
    obtain ⟨out, o1, o2⟩ := C28_exact Ext.dummy Ext.dummy_lawful Ext.dummy_interpolates .debug Stream.new _ (by decide) (by unfold AllFinite; decide +kernel)
      (fun x hx => inRange_iff.2 (by unfold SplitSafe; revert x; decide +kernel)) 0 (by decide) (by decide) g h1
    refine ⟨g, out, h1, o1, fun hs => ?_⟩
    rcases o2.1 hs with h | h
    · have hab : (F64.lit 16777216).val = (F64.lit 16777217).val := h _ (by decide +kernel) _ (by decide +kernel)
      exact absurd ((val_eq_iff (by decide)).1 hab) (by decide +kernel)
    · apply h.1
      intro a ha b hb
      have : ∀ a ∈ collapsedPair, ∀ b ∈ collapsedPair, (FP.cvt a : F32).lt (FP.cvt b : F32) = false := by decide +kernel
      exact this a ha b hb

end Atsc
