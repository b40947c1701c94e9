import Verif.Props.Constant
import Verif.Props.NonFinite
import Verif.Props.StatsMore
import Verif.Props.WbroLayout
/- C125: RLE gives back the bits, and the file. -/
namespace Atsc
open FP

/-- A nonzero value determines the bits. -/
theorem bits_of_val {x y : F64} (h : x.val = y.val) (hx : x.val ≠ 0) : x = y := by
  have hs := (val_eq_iff (by decide)).1 h
  have hx' : x.scaled ≠ 0 := fun h0 => hx (by
    have := (val_eq_int (x := x) (n := 0) (by decide)).2 (by rw [h0]; simp)
    simpa using this)
  have ha : x.absVal = y.absVal ∧ x.sign = y.sign := by
    unfold scaled at hs hx'
    generalize x.absVal = a at hs hx' ⊢
    generalize y.absVal = b at hs ⊢
    cases hsx : x.sign <;> cases hsy : y.sign <;> rw [hsx, hsy] at hs <;> rw [hsx] at hx'
    · exact ⟨by simpa using hs, rfl⟩
    · exfalso; simp at hs hx'; omega
    · exfalso; simp at hs hx'; omega
    · exact ⟨by simpa using hs, rfl⟩
  obtain ⟨sx, mx⟩ := x
  obtain ⟨sy, my⟩ := y
  have h2 : sx = sy := ha.2
  have h1 := ha.1
  subst h2
  congr 1
  apply Fin.ext
  exact magVal_inj.1 h1

/-- Specification: the frame `l` keeps the signs of its zeros: there is no negative zero, or the frame is not one of whole 32-bit numbers and of two zeros in a row
both or none are negative. -/
def KeepsZeros (l : List F64) : Prop := FP.negZero ∉ l ∨ (¬ WholeWithin (-2 ^ 31) (2 ^ 31 - 1) l ∧
  ∀ i (h : i + 1 < l.length), (l[i]).val = 0 → (l[i + 1]).val = 0 → l[i + 1] = l[i])

/-- Integer storage gives zeros back without a sign. -/
theorem castBD_zero {bd : Bitdepth} (hbd : bd ≠ .f64) : castBD bd FP.zero = FP.zero ∧ castBD bd FP.negZero = FP.zero := by
  cases bd <;> first | exact absurd rfl hbd | decide +kernel

/-- **C125, one chunk.** RLE gives back every sample but zeros bit for bit; zeros without their sign if the chunk is stored as whole numbers of at most 32 bits, and
otherwise with the sign of the last one of those in a row. -/
theorem C125_chunk (E : Ext) (data : List F64) (hne : data ≠ []) (hlen : data.length < 2 ^ 64) (hfin : AllFinite data) (hr : ∀ x ∈ data, InRange x) :
    ∃ bs out, Compressor.rle.compress E data = .ok bs ∧ Compressor.rle.decompress E data.length bs = .ok out ∧ out.length = data.length ∧
      ∀ i (ha : i < out.length) (hb : i < data.length), ((data[i]).val ≠ 0 → out[i] = data[i]) ∧
        (WholeWithin (-2 ^ 31) (2 ^ 31 - 1) data → (data[i]).val = 0 → out[i] = FP.zero) ∧
        (¬ WholeWithin (-2 ^ 31) (2 ^ 31 - 1) data → ∃ j, i ≤ j ∧ ∃ hj : j < data.length,
          (∀ k (hk : k < data.length), i ≤ k → k ≤ j → (data[k]).val = (data[i]).val) ∧
          (∀ hk : j + 1 < data.length, (data[j + 1]).val ≠ (data[i]).val) ∧ out[i] = data[j]) := by
  obtain ⟨st, bs, out, hst, h1, h2, h3, h4⟩ := C11_rle_runs E data hne hlen
  obtain ⟨st', g1, -, -, -, g5⟩ := C90_narrowest data hne hfin hr
  rw [hst] at g1; obtain rfl := Except.ok.inj g1
  refine ⟨bs, out, h1, h2, h3, fun i ha hb => ?_⟩
  obtain ⟨j, hij, hj, h5, h6, h7⟩ := h4 i hb
  rw [List.getElem?_eq_getElem ha] at h7
  have h7 := Option.some.inj h7
  have hfe : ∀ a ∈ data, ∀ b ∈ data, (a.feq b = true ↔ a.val = b.val) := by
    intro a ha b hb
    rw [feq_iff, val_eq_iff (by decide)]
    exact ⟨fun h => h.2.2, fun h => ⟨isFinite_not_nan (hfin a ha), isFinite_not_nan (hfin b hb), h⟩⟩
  have hall : ∀ k (hk : k < data.length), i ≤ k → k ≤ j → (data[k]).val = (data[i]).val := by
    intro k
    induction k with
    | zero => intro hk h0 _; have : i = 0 := by omega
              subst this; rfl
    | succ k ih =>
      intro hk hik hkj
      rcases Nat.lt_or_ge k i with hlt | hge
      · have : i = k + 1 := by omega
        subst this; rfl
      · rw [← ih (by omega) hge (by omega)]
        exact (hfe _ (List.getElem_mem _) _ (List.getElem_mem _)).1 (h5 k hk hge (by omega))
  have hv := hall j hj hij (le_refl _)
  have hcv := castBD_val hfin hr hst (List.getElem_mem hj)
  refine ⟨fun hz => ?_, fun hw hz => ?_, fun hw => ⟨j, hij, hj, hall, fun hk => ?_, ?_⟩⟩
  · rw [h7]
    exact bits_of_val (hcv.1.trans hv) (by rw [hcv.1, hv]; exact hz)
  · have hbd : st.bitdepth ≠ .f64 := fun h => g5.1 h hw
    rw [h7]
    rcases isZero_cases (hv.trans hz) (hfin _ (List.getElem_mem hj)) with h | h <;> rw [h]
    · exact (castBD_zero hbd).1
    · exact (castBD_zero hbd).2
  · rw [← hv]
    intro he
    have := (hfe _ (List.getElem_mem _) _ (List.getElem_mem _)).2 he
    rw [h6 hk] at this
    cases this
  · rw [h7, g5.2 hw]; rfl

/-- **C125, one chunk, exactly.** RLE gives back the very same chunk exactly if the chunk keeps the signs of its zeros. -/
theorem C125_exact (E : Ext) (data : List F64) (hne : data ≠ []) (hlen : data.length < 2 ^ 64) (hfin : AllFinite data) (hr : ∀ x ∈ data, InRange x) :
    ∃ bs out, Compressor.rle.compress E data = .ok bs ∧ Compressor.rle.decompress E data.length bs = .ok out ∧ out.length = data.length ∧
      (out = data ↔ KeepsZeros data) := by
  obtain ⟨bs, out, h1, h2, h3, h4⟩ := C125_chunk E data hne hlen hfin hr
  refine ⟨bs, out, h1, h2, h3, ?_⟩
  have hzv : (FP.negZero : F64).val = 0 ∧ (FP.zero : F64).val = 0 := by
    constructor <;> unfold FP.val <;> norm_num [FP.negZero, FP.zero, FP.ofPat]
  have hnz : (FP.negZero : F64) ≠ FP.zero := by decide
  constructor
  · intro h
    by_cases hm : FP.negZero ∈ data
    · right
      obtain ⟨i, hi, he⟩ := List.getElem_of_mem hm
      refine ⟨fun hw => ?_, fun k hk z1 z2 => ?_⟩
      · have := (h4 i (by omega) hi).2.1 hw (by rw [he]; exact hzv.1)
        subst h
        rw [he] at this
        exact hnz this
      · by_cases hw : WholeWithin (-2 ^ 31) (2 ^ 31 - 1) data
        · have a := (h4 k (by omega) (by omega)).2.1 hw z1
          have b := (h4 (k + 1) (by omega) (by omega)).2.1 hw z2
          subst h
          rw [a, b]
        · obtain ⟨j, j1, j2, j3, j4, j5⟩ := (h4 k (by omega) (by omega)).2.2 hw
          obtain ⟨j', k1, k2, k3, k4, k5⟩ := (h4 (k + 1) (by omega) (by omega)).2.2 hw
          have hjj : j = j' := by
            rcases lt_trichotomy j j' with hl | hl | hl
            · refine absurd ?_ (j4 (by omega))
              rw [z1]
              rcases Nat.lt_or_ge j (k + 1) with h' | h'
              · have : j = k := by omega
                subst this; exact z2
              · rw [k3 (j + 1) (by omega) (by omega) (by omega)]; exact z2
            · exact hl
            · refine absurd ?_ (k4 (by omega))
              rw [z2, j3 (j' + 1) (by omega) (by omega) (by omega)]; exact z1
          subst hjj
          subst h
          rw [k5, j5]
    · exact Or.inl hm
  · intro hk
    apply List.ext_getElem h3
    intro i ha hb
    obtain ⟨q1, q2, q3⟩ := h4 i ha hb
    by_cases hz : (data[i]).val = 0
    · rcases hk with hk | ⟨hw, hk⟩
      · have hpos : ∀ j (hj : j < data.length), (data[j]).val = 0 → data[j] = FP.zero := by
          intro j hj h0
          rcases isZero_cases h0 (hfin _ (List.getElem_mem hj)) with h | h
          · exact h
          · exact absurd (h ▸ List.getElem_mem hj) hk
        rw [hpos i hb hz]
        by_cases hw : WholeWithin (-2 ^ 31) (2 ^ 31 - 1) data
        · exact q2 hw hz
        · obtain ⟨j, j1, j2, j3, -, j5⟩ := q3 hw
          rw [j5]
          exact hpos j j2 ((j3 j j2 j1 (le_refl _)).trans hz)
      · obtain ⟨j, j1, j2, j3, -, j5⟩ := q3 hw
        rw [j5]
        have : ∀ k (hk' : k < data.length), i ≤ k → k ≤ j → data[k] = data[i] := by
          intro k
          induction k with
          | zero => intro _ h0 _; have : i = 0 := by omega
                    subst this; rfl
          | succ k ih =>
            intro hk' hik hkj
            rcases Nat.lt_or_ge k i with hlt | hge
            · have : i = k + 1 := by omega
              subst this; rfl
            · rw [← ih (by omega) hge (by omega)]
              exact hk k hk' ((j3 k (by omega) hge (by omega)).trans hz) ((j3 (k + 1) hk' (by omega) hkj).trans hz)
        exact this j j2 j1 (le_refl _)
    · exact q1 hz

/-- **C125.** With `--compressor rle` the finite samples come back bit for bit exactly if every frame (C80) keeps the signs of its zeros; in particular if
there is no negative zero. -/
theorem C125_bits (E : Ext) (hE : E.Lawful) (p : Profile) (data : List F64) (a : CompArgs) (ha : a.Valid) (hp : FewEnough p data)
    (hc : a.compressor = .rle) (hr : ∀ x ∈ data, x.isFinite = true → InRange x) :
    ∃ bs, compressData E p data a = .ok bs ∧ (bs.length < 2 ^ 64 → ∃ out, decompressData E bs = .ok out ∧
      (out = finiteSamples data ↔ ∀ l ∈ layout (finiteSamples data), KeepsZeros l)) := by
  obtain ⟨bs, h1, h2⟩ := C54_end_to_end E hE p data a ha hp
  refine ⟨bs, h1, fun hl => ?_⟩
  obtain ⟨out, h3, -⟩ := h2 hl
  refine ⟨out, h3, ?_⟩
  obtain ⟨outs, rfl, hp⟩ := decoded_pieces hE ha h1 hl h3
  have hk : List.Forall₂ (fun l o => o.length = l.length ∧ (o = l ↔ KeepsZeros l)) (layout (finiteSamples data)) outs := by
    rw [List.forall₂_iff_get] at hp ⊢
    refine ⟨hp.1, fun i hi hi' => ?_⟩
    obtain ⟨q1, q2⟩ := hp.2 i hi hi'
    have hmem : (layout (finiteSamples data)).get ⟨i, hi⟩ ∈ layout (finiteSamples data) := List.get_mem _ _
    generalize (layout (finiteSamples data)).get ⟨i, hi⟩ = l at q1 q2 hmem ⊢
    have hall : ∀ y ∈ l, y ∈ data ∧ y.isFinite = true := by
      intro y hy
      have : y ∈ (layout (finiteSamples data)).flatten := List.mem_flatten.2 ⟨l, hmem, hy⟩
      rw [(layout_lengths _).2] at this
      exact List.mem_filter.1 this
    have hsz := layout_small hmem
    obtain ⟨b, o, o1, o2, o3, o4⟩ := C125_exact E l (List.ne_nil_of_length_pos hsz.1) (by omega) (fun y hy => (hall y hy).2)
      (fun y hy => hr y (hall y hy).1 (hall y hy).2)
    have hfr : (ChunkOp.using l .rle).frame E = .ok { Frame.new (some .rle) with sampleCount := l.length, data := b } := by
      show Compressor.rle.compress E l >>= _ = _
      rw [o1, ok_bind]
    have q1 : (ChunkOp.using l .rle).alone E p = .ok (outs.get ⟨i, hi'⟩) := by
      rw [← q1, CompArgs.op, hc]; rfl
    rw [alone_eq hfr] at q1
    have q1 : Compressor.rle.decompress E l.length b = _ := q1
    rw [o2] at q1
    obtain rfl := Except.ok.inj q1
    exact ⟨q2, o4⟩
  have key : ∀ (ls outs : List (List F64)), List.Forall₂ (fun l o => o.length = l.length ∧ (o = l ↔ KeepsZeros l)) ls outs →
      (outs.flatten = ls.flatten ↔ ∀ l ∈ ls, KeepsZeros l) := by
    intro ls outs h
    induction h with
    | nil => simp
    | @cons l o ls outs h _ ih =>
      rw [List.flatten_cons, List.flatten_cons, List.forall_mem_cons, ← ih, ← h.2]
      constructor
      · intro he
        exact List.append_inj he h.1
      · rintro ⟨rfl, he⟩
        rw [he]
  rw [← key _ _ hk, (layout_lengths _).2]

/-- **C125, the file.** `atsc --compressor rle` on a WBRO file written from `d`, then `atsc -u` on the `.bro` file, also when the original has been deleted or moved in
between and other files have changed: the second command writes a WBRO file that is byte for byte the original exactly if all samples are finite and every frame
keeps the signs of its zeros. -/
theorem C125_file (env : Env) (hE : env.E.Lawful) (ha : 8 ∣ env.addr) (stat1 stat2 : List Char → Input) (ts1 ts2 : List Tok) (a1 a2 : AtscArgs)
    (h1 : atscParse ts1 = .ok a1) (h2 : atscParse ts2 = .ok a2) (hu1 : a1.run.uncompress = false) (hu2 : a2.run.uncompress = true)
    (hv1 : a1.run.csv = false) (hr : a1.run.comp.compressor = .rle)
    (path : FPath) (hs1 : stat1 a1.input = .file path) (hs2 : stat2 a2.input = .file (path.withExt "bro"))
    (fs : Fs) (c : Bytes) (hc : fs path = some c) (d : List F64) (hg : WavBrro.toFileWithData d = .ok c) (hd : d.length ≤ 2 ^ 28) (hp : FewEnough env.p d)
    (hx : ∃ x ∈ d, x.isFinite = true) (hin : ∀ x ∈ d, x.isFinite = true → InRange x) :
    ∃ bs, atscMain env stat1 fs ts1 = (fs.write (path.withExt "bro") bs, 0) ∧
      (bs.length < 2 ^ 64 → ∃ f2, (∀ fs2 : Fs, fs2 (path.withExt "bro") = some bs →
          atscMain env stat2 fs2 ts2 = (fs2.write (path.withExt "wbro") f2, 0)) ∧
        (f2 = c ↔ (∀ x ∈ d, x.isFinite = true) ∧ ∀ l ∈ layout d, KeepsZeros l)) := by
  obtain ⟨bs, c1, c2, c3⟩ := C107_session env hE ha stat1 stat2 ts1 ts2 a1 a2 h1 h2 hu1 hu2 path hs1 hs2 fs c hc d (.wbro hv1 hg) hd hp hx
  refine ⟨bs, c2, fun hl => ?_⟩
  obtain ⟨x, hx1, hx2⟩ := hx
  obtain ⟨bs', e1, hread, -⟩ := C53_accepted env.E hE env.p d a1.run.comp (C104_ranges ts1 a1 h1) hp x hx1 hx2
  rw [c1] at e1
  obtain rfl := Except.ok.inj e1
  obtain ⟨bs', r1, r2⟩ := C125_bits env.E hE env.p d a1.run.comp (C104_ranges ts1 a1 h1) hp hr hin
  rw [c1] at r1
  obtain rfl := Except.ok.inj r1
  obtain ⟨out, k1, k2⟩ := r2 hl
  obtain ⟨out', -, o1, o2, -⟩ := c3 hl
  rw [k1] at o1
  obtain rfl := Except.ok.inj o1
  have hle : (finiteSamples d).length ≤ d.length := List.length_filter_le _ _
  obtain ⟨f2, g1, g2⟩ := C39_round_trip out (by omega) env.addr ha
  obtain ⟨f, g3, g4⟩ := C39_round_trip d hd env.addr ha
  rw [hg] at g3
  obtain rfl := Except.ok.inj g3
  have hfin : finiteSamples d = d ↔ ∀ x ∈ d, x.isFinite = true := List.filter_eq_self
  refine ⟨f2, fun fs2 hf2 => ?_, ?_⟩
  · have ow : outputPath a2.run (path.withExt "bro") = path.withExt "wbro" := by unfold outputPath FPath.withExt; rw [hu2]; rfl
    rw [(C104_refused env stat2 _ ts2).2.2.2 a2 h2, hs2, C88_exact]
    have hb : 12 ≤ bs.length ∧ bs.take 4 = [66, 82, 82, 79] := by
      unfold broRead at hread
      by_cases hl : bs.length < 12
      · rw [if_pos hl] at hread; cases hread
      · rw [if_neg hl] at hread
        by_cases h4 : bs.take 4 = brro
        · exact ⟨by omega, h4⟩
        · rw [if_neg h4] at hread; cases hread
    exact ⟨bs, hf2, .inl ⟨f2, .uncompress hu2 hb.1 hb.2 k1 g1, by rw [ow]⟩⟩
  · constructor
    · rintro rfl
      rw [g2] at g4
      obtain rfl : out = d := by injection Except.ok.inj g4
      have hf : finiteSamples out = out := List.filter_eq_self.2 fun x hx => by
        by_contra hne
        have : (finiteSamples out).length < out.length := List.length_filter_lt_length_iff_exists.2 ⟨x, hx, hne⟩
        omega
      rw [hf] at k2
      exact ⟨hfin.1 hf, k2.1 rfl⟩
    · rintro ⟨w1, w2⟩
      rw [hfin.2 w1] at k2
      have := k2.2 w2
      subst this
      rw [hg] at g1
      exact (Except.ok.inj g1).symm

/-- **C125 [RLE gives every file back byte for byte].** It does not: one negative zero among whole numbers comes back as zero, and in a row of zeros the last one's sign
wins. -/
theorem C125_refuted : (∃ bs, compressData Ext.dummy .debug [F64.lit 5, FP.negZero] ⟨.rle, 0, 0⟩ = .ok bs ∧
      decompressData Ext.dummy bs = .ok [F64.lit 5, FP.zero]) ∧
    ∃ bs, compressData Ext.dummy .debug [oneHalf, FP.negZero, FP.zero] ⟨.rle, 0, 0⟩ = .ok bs ∧
      decompressData Ext.dummy bs = .ok [oneHalf, FP.zero, FP.zero] := by
  have h : okAnd (compressData Ext.dummy .debug [F64.lit 5, FP.negZero] ⟨.rle, 0, 0⟩) (fun bs =>
      okAnd (decompressData Ext.dummy bs) fun out => decide (out = [F64.lit 5, FP.zero])) = true := by decide +kernel
  have h' : okAnd (compressData Ext.dummy .debug [oneHalf, FP.negZero, FP.zero] ⟨.rle, 0, 0⟩) (fun bs =>
      okAnd (decompressData Ext.dummy bs) fun out => decide (out = [oneHalf, FP.zero, FP.zero])) = true := by decide +kernel
  obtain ⟨bs, h1, h2⟩ := okAnd_iff.1 h
  obtain ⟨out, h3, h4⟩ := okAnd_iff.1 h2
  obtain ⟨bs', h1', h2'⟩ := okAnd_iff.1 h'
  obtain ⟨out', h3', h4'⟩ := okAnd_iff.1 h2'
  exact ⟨⟨bs, h1, by rw [h3, of_decide_eq_true h4]⟩, bs', h1', by rw [h3', of_decide_eq_true h4']⟩

/-- `KeepsZeros` both ways: a frame without negative zeros, a frame with a fraction and a negative zero beside nonzero samples; and two that do not keep them. -/
example : KeepsZeros [F64.lit 5, FP.zero] ∧ KeepsZeros [oneHalf, FP.negZero, F64.lit 3, FP.zero] ∧ ¬ KeepsZeros [F64.lit 5, FP.negZero] ∧
    ¬ KeepsZeros [oneHalf, FP.negZero, FP.zero] := by
  have hz : (FP.negZero : F64).val = 0 ∧ (FP.zero : F64).val = 0 := by
    constructor <;> unfold FP.val <;> norm_num [FP.negZero, FP.zero, FP.ofPat]
  have h5 : (F64.lit 5).val = (5 : ℤ) := (lit_val (by decide)).2
  have h3 : (F64.lit 3).val = (3 : ℤ) := (lit_val (by decide)).2
  have hh : ∀ l, ¬ WholeWithin (-2 ^ 31) (2 ^ 31 - 1) (oneHalf :: l) := by
    intro l hw
    obtain ⟨n, hn, -⟩ := hw oneHalf List.mem_cons_self
    rw [oneHalf_val] at hn
    have : (1 : ℚ) = ((2 * n : ℤ) : ℚ) := by push_cast; linarith
    have := Int.cast_injective (α := ℚ) (by simpa using this : ((1 : ℤ) : ℚ) = ((2 * n : ℤ) : ℚ))
    omega
  refine ⟨Or.inl (by decide +kernel), Or.inr ⟨hh _, fun i hi z1 z2 => ?_⟩, ?_, ?_⟩
  · have hi' : i = 0 ∨ i = 1 ∨ i = 2 := by
      rw [List.length_cons, List.length_cons, List.length_cons, List.length_singleton] at hi
      omega
    rcases hi' with rfl | rfl | rfl
    · exact absurd (oneHalf_val.symm.trans z1) (by norm_num)
    · exact absurd (h3.symm.trans z2) (by norm_num)
    · exact absurd (h3.symm.trans z1) (by norm_num)
  · rintro (h | ⟨h, -⟩)
    · exact h (by decide +kernel)
    · refine h fun x hx => ?_
      rcases List.mem_cons.1 hx with rfl | hx
      · exact ⟨5, h5, by decide, by decide⟩
      · rw [List.mem_singleton.1 hx]
        exact ⟨0, by rw [hz.1]; norm_num, by decide, by decide⟩
  · rintro (h | ⟨-, h⟩)
    · exact h (by decide +kernel)
    · exact absurd (h 1 (by decide) hz.1 hz.2) (by decide +kernel)

/-- The hypotheses of `C125_bits` are met by these samples. -/
example : (⟨.rle, 0, 0⟩ : CompArgs).Valid ∧ FewEnough .debug [F64.lit 5, FP.negZero] ∧ ∀ x ∈ [F64.lit 5, FP.negZero], x.isFinite = true → InRange x := by
  refine ⟨⟨by decide, by decide⟩, fun _ => by decide, ?_⟩
  intro x hx _
  rcases List.mem_cons.1 hx with rfl | hx
  · exact inRange_of_int (lit_val (by decide)).2 (by decide)
  · rw [List.mem_singleton.1 hx]
    have hz : (FP.negZero : F64).val = 0 := by unfold FP.val; norm_num [FP.negZero, FP.ofPat]
    exact Or.inl hz

end Atsc
