import Verif.Props.Wavbrro
import Verif.Lemmas.Stream
/- C92: the layout of a WBRO file, against the specification in wavbrro/README.md. -/
namespace Atsc
open WavBrro

/-- The number in the `k` bytes at offset `pos`, lowest byte first. -/
def numberAt (f : Bytes) (pos k : Nat) : Nat := ofLE ((f.drop pos).take k)

/-- The layout of a WBRO file that holds the samples `d`. -/
structure WbroLayout (d : List F64) (f : Bytes) : Prop where
  /-- header, samples, one 8-byte entry for each block of 2048 samples, 16 bytes at the end -/
  size : f.length = 12 + 8 * d.length + 8 * ((d.length + 2047) / 2048) + 16
  /-- bytes 0..3 and 8..11 are `WBRO` -/
  marks : f.take 4 = [87, 66, 82, 79] ∧ (f.drop 8).take 4 = [87, 66, 82, 79]
  /-- sample `i` is the double at offset `12 + 8 i` -/
  sample : ∀ (i : Nat) (hi : i < d.length), numberAt f (12 + 8 * i) 8 = d[i].toBits
  /-- the entry of block `k` records its number of samples: 2048, or what is left for the last -/
  block : ∀ k < (d.length + 2047) / 2048, numberAt f (12 + 8 * d.length + 8 * k + 4) 4 = min 2048 (d.length - 2048 * k)
  /-- number of blocks -/
  blocks : numberAt f (f.length - 12) 4 = (d.length + 2047) / 2048
  /-- number of samples -/
  count : numberAt f (f.length - 8) 4 = d.length
  /-- bit depth 5: `f64` -/
  depth : f.drop (f.length - 4) = [5, 0, 0, 0]

theorem chunksOf_count (d : List F64) : (chunksOf maxChunk d).length = (d.length + 2047) / 2048 := by
  induction hk : d.length using Nat.strong_induction_on generalizing d with
  | _ k ih =>
    by_cases hd : d = []
    · subst hd; rw [chunksOf_nil]; simp at hk; simp [← hk]
    · have hpos : 0 < d.length := List.length_pos_iff.2 hd
      have hm : maxChunk = 2048 := rfl
      rw [chunksOf_step (by decide) hd, List.length_cons]
      have hl : (d.drop maxChunk).length = d.length - 2048 := by rw [List.length_drop, hm]
      rw [ih _ (by omega) (d.drop maxChunk) rfl, hl]
      omega

theorem chunksOf_get (d : List F64) : ∀ (k : Nat) (hk : k < (chunksOf maxChunk d).length),
    ((chunksOf maxChunk d)[k]).length = min 2048 (d.length - 2048 * k) := by
  induction hk : d.length using Nat.strong_induction_on generalizing d with
  | _ n ih =>
    intro k hk'
    by_cases hd : d = []
    · subst hd; simp [chunksOf_nil] at hk'
    · have hpos : 0 < d.length := List.length_pos_iff.2 hd
      have hm : maxChunk = 2048 := rfl
      have hl : (d.drop maxChunk).length = d.length - 2048 := by rw [List.length_drop, hm]
      have e := chunksOf_step (n := maxChunk) (by decide) hd
      cases k with
      | zero =>
        have : (chunksOf maxChunk d)[0] = d.take 2048 := by simp only [e, List.getElem_cons_zero]; rw [hm]
        rw [this, List.length_take]
        omega
      | succ k =>
        have hk2 : k < (chunksOf maxChunk (d.drop maxChunk)).length := by rw [e] at hk'; simpa using hk'
        have := ih _ (by omega) (d.drop maxChunk) rfl k hk2
        simp only [e, List.getElem_cons_succ]
        rw [this, hl]
        omega

theorem arcInner_get : ∀ {cs : List (List F64)} {pos target : Nat} {b : Bytes}, arcInner pos target cs = .ok b →
    ∀ (k : Nat) (hk : k < cs.length), (b.drop (8 * k + 4)).take 4 = leBytes 4 (cs[k].length % 4294967296) := by
  intro cs
  induction cs with
  | nil => intro pos target b _ k hk; simp at hk
  | cons c cs ih =>
    intro pos target b h k hk
    unfold arcInner at h
    obtain ⟨a, h1, h⟩ := bind_ok_iff.1 h
    obtain ⟨b', h2, h⟩ := bind_ok_iff.1 h
    obtain rfl := Except.ok.inj h
    have hal := arcVec_length h1
    cases k with
    | zero =>
      unfold arcVec at h1
      obtain ⟨r, h3, h4⟩ := bind_ok_iff.1 h1
      obtain rfl := Except.ok.inj h4
      have hr := relPtr_length h3
      simp only [Nat.mul_zero, Nat.zero_add, List.getElem_cons_zero]
      rw [List.append_assoc, List.drop_append, List.drop_eq_nil_of_le (by omega), hr]
      simp [leBytes_length]
    | succ k =>
      have := ih h2 k (by simpa using hk)
      simp only [List.getElem_cons_succ]
      rw [← this, List.drop_append, List.drop_eq_nil_of_le (by omega), hal]
      simp only [List.nil_append]
      congr 2

theorem items_get (d : List F64) : ∀ (i : Nat) (hi : i < d.length), ((d.flatMap encF64).drop (8 * i)).take 8 = encF64 d[i] := by
  induction d with
  | nil => intro i hi; simp at hi
  | cons x d ih =>
    intro i hi
    have hx := encF64_length x
    rw [List.flatMap_cons]
    cases i with
    | zero => rw [Nat.mul_zero, List.drop_zero, List.take_append_of_le_length (by omega), List.take_of_length_le (by omega)]; rfl
    | succ i =>
      have := ih i (by simpa using hi)
      simp only [List.getElem_cons_succ]
      rw [← this, List.drop_append, List.drop_eq_nil_of_le (by omega), hx]
      simp only [List.nil_append]
      congr 2

/-- The bytes at an offset inside the second part. -/
theorem slice_skip {a b : Bytes} {p n : Nat} (h : a.length ≤ p) : ((a ++ b).drop p).take n = (b.drop (p - a.length)).take n := by
  rw [List.drop_append, List.drop_eq_nil_of_le h, List.nil_append]

/-- The bytes at an offset inside the first part. -/
theorem slice_front {a b : Bytes} {p n : Nat} (h : p + n ≤ a.length) : ((a ++ b).drop p).take n = (a.drop p).take n := by
  rw [List.drop_append_of_le_length (by omega), List.take_append_of_le_length (by rw [List.length_drop]; omega)]

/-- C92: a file of up to 2^28 samples has this layout. -/
theorem C92_layout (d : List F64) (h : d.length ≤ 2 ^ 28) : ∃ f, toFileWithData d = .ok f ∧ WbroLayout d f := by
  obtain ⟨bs, hbs⟩ := toBytes_fits (d := d) (by omega)
  refine ⟨wholeFile bs, by unfold toFileWithData toFile; rw [hbs]; rfl, ?_⟩
  have hf := chunksOf_flatten (n := maxChunk) (by decide) d
  unfold toBytes fromSlice at hbs
  simp only [hf] at hbs
  obtain ⟨inner, hin, hbs⟩ := bind_ok_iff.1 hbs
  obtain ⟨root, hroot, hbs⟩ := bind_ok_iff.1 hbs
  have hbs := Except.ok.inj hbs
  have hil := items_length d
  have hinl := arcInner_length hin
  rw [chunksOf_count] at hinl
  have hrl := arcVec_length hroot
  have hlb := leBytes_length 4 (d.length % 4294967296)
  have hbl : bs.length = 8 * d.length + 8 * ((d.length + 2047) / 2048) + 16 := by
    rw [← hbs]; simp only [List.length_append, List.length_cons, List.length_nil]; omega
  have hne : bs ≠ [] := by intro e; rw [e] at hbl; simp at hbl
  have hw : wholeFile bs = header ++ bs := by
    unfold wholeFile writtenFile
    rw [if_neg (by rintro (h | h); omega; exact hne h), List.take_length]
    rfl
  have hh : header.length = 12 := rfl
  have hfl : (wholeFile bs).length = 12 + 8 * d.length + 8 * ((d.length + 2047) / 2048) + 16 := by
    rw [hw, List.length_append, hh, hbl]; omega
  have hbs' : bs = d.flatMap encF64 ++ (inner ++ (root ++ (leBytes 4 (d.length % 4294967296) ++ [UInt8.ofNat 5, 0, 0, 0]))) := by
    rw [← hbs]; simp only [List.append_assoc]
  refine ⟨hfl, ⟨?_, ?_⟩, ?_, ?_, ?_, ?_, ?_⟩
  · rw [hw, List.take_append_of_le_length (by omega)]; rfl
  · rw [hw, slice_front (by omega)]; rfl
  · intro i hi
    unfold numberAt
    rw [hw, slice_skip (by omega), hbs', slice_front (by omega), show 12 + 8 * i - header.length = 8 * i by omega, items_get d i hi]
    unfold encF64
    rw [ofLE_leBytes]
    exact lt_of_lt_of_eq (FP.toBits_lt _) (by rfl)
  · intro k hk
    unfold numberAt
    have hk' : k < (chunksOf maxChunk d).length := by rw [chunksOf_count]; exact hk
    rw [hw, slice_skip (by omega), hbs', slice_skip (by omega), slice_front (by omega),
      show 12 + 8 * d.length + 8 * k + 4 - header.length - (d.flatMap encF64).length = 8 * k + 4 by omega, arcInner_get hin k hk',
      chunksOf_get d k hk', Nat.mod_eq_of_lt (by omega), ofLE_leBytes _ _ (by omega)]
  · unfold numberAt
    have hroot' := hroot
    unfold arcVec at hroot'
    obtain ⟨r, h3, h4⟩ := bind_ok_iff.1 hroot'
    have hr := relPtr_length h3
    have h4 := Except.ok.inj h4
    have hcl := leBytes_length 4 ((chunksOf maxChunk d).length % 4294967296)
    rw [hfl, hw, slice_skip (by omega), hbs', slice_skip (by omega), slice_skip (by omega), slice_front (by omega), ← h4, slice_skip (by omega)]
    rw [show 12 + 8 * d.length + 8 * ((d.length + 2047) / 2048) + 16 - 12 - header.length - (d.flatMap encF64).length - inner.length - r.length = 0 by omega,
      List.drop_zero, List.take_of_length_le (by omega), chunksOf_count, Nat.mod_eq_of_lt (by omega), ofLE_leBytes _ _ (by omega)]
  · unfold numberAt
    rw [hfl, hw, slice_skip (by omega), hbs', slice_skip (by omega), slice_skip (by omega), slice_skip (by omega), slice_front (by omega)]
    rw [show 12 + 8 * d.length + 8 * ((d.length + 2047) / 2048) + 16 - 8 - header.length - (d.flatMap encF64).length - inner.length - root.length = 0 by omega,
      List.drop_zero, List.take_of_length_le (by omega), Nat.mod_eq_of_lt (by omega), ofLE_leBytes _ _ (by omega)]
  · rw [hfl, hw, hbs']
    have : header ++ (d.flatMap encF64 ++ (inner ++ (root ++ (leBytes 4 (d.length % 4294967296) ++ [UInt8.ofNat 5, 0, 0, 0])))) =
        (header ++ d.flatMap encF64 ++ inner ++ root ++ leBytes 4 (d.length % 4294967296)) ++ [UInt8.ofNat 5, 0, 0, 0] := by simp only [List.append_assoc]
    rw [this, List.drop_append_of_le_length (by simp only [List.length_append]; omega), List.drop_eq_nil_of_le (by simp only [List.length_append]; omega)]
    rfl

/-- C92: the layout says everything a reader needs: two files with the layout of the same number of samples that agree on the sample area hold the same samples. -/
theorem C92_determines (d d' : List F64) (f : Bytes) (h : WbroLayout d f) (h' : WbroLayout d' f) : d = d' := by
  have hl : d.length = d'.length := by rw [← h.count, ← h'.count]
  apply List.ext_getElem hl
  intro i h1 h2
  exact FP.toBits_injective ((h.sample i h1).symm.trans (h'.sample i h2))

/-- C92: wavbrro/README.md says that bytes 4..7 of the header are the number of samples.  They never are: they are the text `0000`,
which as a number is more than any file can hold. -/
theorem C92_refuted_header_count (d : List F64) (f : Bytes) (h : toFileWithData d = .ok f) : numberAt f 4 4 = 808464432 ∧ numberAt f 4 4 ≠ d.length := by
  have hd : d.length ≤ 2 ^ 28 := by
    by_contra hc
    obtain ⟨e, he⟩ := C39_limit d (by omega)
    rw [he] at h; cases h
  have e : numberAt f 4 4 = 808464432 := by
    unfold toFileWithData toFile at h
    obtain ⟨bs, -, h⟩ := bind_ok_iff.1 h
    obtain rfl := Except.ok.inj h
    unfold wholeFile writtenFile numberAt
    split
    · decide +kernel
    · have : (header.take 12 ++ List.replicate (12 - 12) 0 ++ bs.take bs.length).drop 4 = [48, 48, 48, 48, 87, 66, 82, 79] ++ bs := by
        simp [header]
      have h4 : (([48, 48, 48, 48, 87, 66, 82, 79] : Bytes) ++ bs).take 4 = [48, 48, 48, 48] := rfl
      rw [this, h4]; decide +kernel
  exact ⟨e, by rw [e]; omega⟩

/-- C92: the reader does not look at these four bytes. -/
theorem C92_field_ignored (addr : Nat) (a b rest : Bytes) (ha : a.length = 4) (hb : b.length = 4) :
    fromFile addr ([87, 66, 82, 79] ++ a ++ [87, 66, 82, 79] ++ rest) = fromFile addr ([87, 66, 82, 79] ++ b ++ [87, 66, 82, 79] ++ rest) := by
  have key : ∀ c : Bytes, c.length = 4 → fromFile addr ([87, 66, 82, 79] ++ c ++ [87, 66, 82, 79] ++ rest) =
      (do let w ← fromBytes addr rest; .ok (.samples w.getSamples)) := by
    intro c hc
    unfold fromFile sliceAt
    rw [if_neg (by simp only [List.length_append, List.length_cons, List.length_nil]; omega)]
    have h1 : (([87, 66, 82, 79] ++ c ++ [87, 66, 82, 79] ++ rest).drop 0).take 4 = wbro := by
      rw [List.drop_zero, List.append_assoc, List.append_assoc]; rfl
    have h2 : (([87, 66, 82, 79] ++ c ++ [87, 66, 82, 79] ++ rest).drop 8).take 4 = wbro := by
      have l8 : (([87, 66, 82, 79] : Bytes) ++ c).length = 8 := by simp [hc]
      rw [List.append_assoc ([87, 66, 82, 79] ++ c), List.drop_append, List.drop_eq_nil_of_le (by omega), l8]
      rfl
    have h3 : ([87, 66, 82, 79] ++ c ++ [87, 66, 82, 79] ++ rest).drop 12 = rest := by
      have l12 : (([87, 66, 82, 79] : Bytes) ++ c ++ [87, 66, 82, 79]).length = 12 := by simp [hc]
      rw [List.drop_append, List.drop_eq_nil_of_le (by omega), l12]; rfl
    rw [if_neg (by rw [h1, h2]; simp), h3]
  rw [key a ha, key b hb]

/-- Not vacuous: two samples. -/
example : ∃ f, toFileWithData [F64.lit 1, F64.lit 2] = .ok f ∧ f.length = 52 := by
  obtain ⟨f, h, l⟩ := C92_layout [F64.lit 1, F64.lit 2] (by simp)
  exact ⟨f, h, l.size⟩

end Atsc
