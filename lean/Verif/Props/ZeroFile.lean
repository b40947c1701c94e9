import Verif.Props.Whole
import Verif.Props.ZeroError
/- C114 for the file, byte for byte. -/
namespace Atsc
open FP

theorem sameValues_eq {l out : List F64} (h : SameValues out l) (hz : ∀ x ∈ l, x.val ≠ 0) : out = l := by
  obtain ⟨hl, h⟩ := h
  refine List.ext_getElem hl fun i h1 h2 => ?_
  obtain ⟨e, -, -⟩ := h i h1 h2
  exact bits_of_val e (by rw [e]; exact hz _ (List.getElem_mem h2))

/-- **C114, byte for byte.** The WBRO file written by the second command is the one compressed by the first, byte for byte, if its samples are all finite, not zero, decimals
with at most five digits after the point, and different ones differ in single precision - also if the original is deleted in between and other files change. -/
theorem C114_file (env : Env) (hE : env.E.Lawful) (hI : env.E.Interpolates) (ha : 8 ∣ env.addr) (stat1 stat2 : List Char → Input) (ts1 ts2 : List Tok) (a1 a2 : AtscArgs)
    (h1 : atscParse ts1 = .ok a1) (h2 : atscParse ts2 = .ok a2) (hu1 : a1.run.uncompress = false) (hu2 : a2.run.uncompress = true)
    (hv1 : a1.run.csv = false)
    (path : FPath) (hs1 : stat1 a1.input = .file path) (hs2 : stat2 a2.input = .file (path.withExt "bro"))
    (fs : Fs) (c : Bytes) (hf : fs path = some c) (d : List F64) (hg : WavBrro.toFileWithData d = .ok c) (hd : d.length ≤ 2 ^ 28) (hp : FewEnough env.p d)
    (hc : a1.run.comp.compressor = .auto) (h0 : a1.run.comp.error = 0) (hlv : a1.run.comp.level = 0 ∨ d.length < sampleSize a1.run.comp.level)
    (hne : d ≠ []) (hall : ∀ x ∈ d, x.isFinite = true ∧ x.val ≠ 0) (h5 : ∀ x ∈ d, Decimal5 x) (hta : ∀ x ∈ d, ∀ y ∈ d, ToldApart x y) :
    ∃ bs, atscMain env stat1 fs ts1 = (fs.write (path.withExt "bro") bs, 0) ∧
      (bs.length < 2 ^ 64 → ∀ fs2 : Fs, fs2 (path.withExt "bro") = some bs →
          atscMain env stat2 fs2 ts2 = (fs2.write (path.withExt "wbro") c, 0)) := by
  have hfs : finiteSamples d = d := List.filter_eq_self.2 fun x hx => (hall x hx).1
  obtain ⟨x, hx⟩ := List.exists_mem_of_ne_nil d hne
  obtain ⟨bs, r1, r2⟩ := file_restored env hE ha stat1 stat2 ts1 ts2 a1 a2 h1 h2 hu1 hu2 hv1 path hs1 hs2 fs c hf d hg hd hp ⟨x, hx, (hall x hx).1⟩
    (Q := True) (by
      intro bs out q1 q2 q3
      obtain ⟨bs', w1, w2⟩ := C114_lossless env.E hE hI env.p d a1.run.comp (C104_ranges ts1 a1 h1) hp hc h0 hlv (fun x hx _ => h5 x hx) (fun x hx _ y hy _ => hta x hx y hy)
      rw [q1] at w1
      obtain rfl := Except.ok.inj w1
      obtain ⟨out', w3, w4⟩ := w2 q2
      rw [q3] at w3
      obtain rfl := Except.ok.inj w3
      exact iff_true_intro (sameValues_eq w4 (by rw [hfs]; exact fun x hx => (hall x hx).2)))
  refine ⟨bs, r1, fun hl => ?_⟩
  obtain ⟨f2, k1, k2⟩ := r2 hl
  obtain rfl := k2.2 ⟨fun x hx => (hall x hx).1, trivial⟩
  exact k1

/-- The conditions on the samples are met by 1, 2. -/
example : oneTwo ≠ [] ∧ (∀ x ∈ oneTwo, x.isFinite = true ∧ x.val ≠ 0) ∧ (∀ x ∈ oneTwo, Decimal5 x) ∧ ∀ x ∈ oneTwo, ∀ y ∈ oneTwo, ToldApart x y := by
  have w : ∀ x ∈ oneTwo, x.isFinite = true ∧ ∃ n : ℤ, 1 ≤ n ∧ n ≤ 2 ∧ x.val = n := by
    intro x hx
    simp only [oneTwo, List.mem_cons, List.not_mem_nil, or_false] at hx
    rcases hx with rfl | rfl
    · exact ⟨(lit_val (by decide)).1, 1, by norm_num, by norm_num, (lit_val (by decide)).2⟩
    · exact ⟨(lit_val (by decide)).1, 2, by norm_num, by norm_num, (lit_val (by decide)).2⟩
  refine ⟨by decide, fun x hx => ?_, fun x hx => ?_, fun x hx y hy hne => ?_⟩
  · obtain ⟨f, n, n1, n2, hv⟩ := w x hx
    refine ⟨f, ?_⟩
    rw [hv]
    exact_mod_cast (by omega : n ≠ 0)
  · obtain ⟨f, n, n1, n2, hv⟩ := w x hx
    refine ⟨n * 10 ^ 5, by rw [abs_mul]; have : |(10 : ℤ) ^ 5| = 100000 := by norm_num
                           rw [this, Int.abs_eq_natAbs]; omega, ?_⟩
    rw [hv, whole_div (by omega)]
  · obtain ⟨f, n, n1, n2, hv⟩ := w x hx
    obtain ⟨g, k, k1, k2, hu⟩ := w y hy
    rw [narrow_int f (by omega) hv, narrow_int g (by omega) hu, ← hv, ← hu]
    exact hne
end Atsc
