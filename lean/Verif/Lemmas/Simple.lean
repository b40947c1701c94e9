import Verif.Lemmas.Bincode
import Verif.Lemmas.Stats
import Verif.Model.Simple
import Mathlib.Data.List.Sort
/- Round trips of Constant, Noop and RLE frames. -/
namespace Atsc
open FP

theorem toInt_bounds {mb eb : Nat} {lo hi : Int} (x : FP mb eb) (h : lo ≤ hi) (h0 : lo ≤ 0) (h1 : 0 ≤ hi) :
    lo ≤ x.toInt lo hi ∧ x.toInt lo hi ≤ hi := by
  unfold toInt; split_ifs <;> omega

theorem rt_bitdepth : RT (fun _ => True) encBitdepth decBitdepth := by
  intro bd rest _
  cases bd <;> rfl

theorem encValue_dec (bd : Bitdepth) (v : F64) (rest : Bytes) :
    decValue bd (encValue bd v ++ rest) = some (castBD bd v, rest) := by
  cases bd with
  | f64 => exact rt_f64 v rest trivial
  | u8 =>
    have hb := toInt_bounds (lo := 0) (hi := 255) v (by omega) (by omega) (by omega)
    simp only [decValue, encValue, castBD]
    rw [Dec.map_eq (rt_u8 _ rest trivial)]
    have : (((UInt8.ofNat (F64.toU8 v).toNat).toNat : Nat) : Int) = F64.toU8 v := by
      have : F64.toU8 v = toInt 0 255 v := rfl
      rw [UInt8.toNat_ofNat']
      omega
    rw [this]
  | i16 =>
    have hb := toInt_bounds (lo := -2 ^ 15) (hi := 2 ^ 15 - 1) v (by omega) (by omega) (by omega)
    simp only [decValue, encValue, castBD]
    rw [Dec.map_eq (rt_i16 (F64.toI16 v) rest ⟨hb.1, by have := hb.2; unfold F64.toI16; omega⟩)]
  | i32 =>
    have hb := toInt_bounds (lo := -2 ^ 31) (hi := 2 ^ 31 - 1) v (by omega) (by omega) (by omega)
    simp only [decValue, encValue, castBD]
    rw [Dec.map_eq (rt_i32 (F64.toI32 v) rest ⟨hb.1, by have := hb.2; unfold F64.toI32; omega⟩)]

theorem constant_dec_enc (c : Constant) (rest : Bytes) :
    Constant.dec (c.enc ++ rest) = some ({ c with constant := castBD c.bitdepth c.constant }, rest) := by
  unfold Constant.dec Constant.enc
  simp only [List.append_assoc]
  rw [Dec.bind_eq (rt_u8 _ _ trivial), Dec.bind_eq (rt_bitdepth _ _ trivial), Dec.bind_eq (encValue_dec _ _ _)]
  rfl

theorem constantToData_enc (n : Nat) (v : F64) (bd : Bitdepth) :
    constantToData n (Constant.new v bd).enc = .ok (List.replicate n (castBD bd v)) := by
  have := constant_dec_enc (Constant.new v bd) []
  rw [List.append_nil] at this
  simp only [constantToData, unwrapDec, this, bind, Except.bind]
  rfl

theorem noopToData_noop (data : List F64) (n : Nat) (h : data.length < 2 ^ 64) :
    noopToData n (noop data) = .ok (data.map fun x => FP.ofInt (F64.toI64 x.round)) := by
  have h64 : ∀ i ∈ Noop.optimize data, -2 ^ 63 ≤ i ∧ i < 2 ^ 63 := by
    intro i hi
    obtain ⟨x, -, rfl⟩ := List.mem_map.1 hi
    have := toInt_bounds (lo := -2 ^ 63) (hi := 2 ^ 63 - 1) x.round (by omega) (by omega) (by omega)
    unfold F64.toI64
    omega
  have hl : (Noop.optimize data).length < 2 ^ 64 := by simpa [Noop.optimize] using h
  have hdec : Noop.dec (noop data) = some (⟨250, Noop.optimize data⟩, []) := by
    unfold Noop.dec noop Noop.enc
    rw [Dec.bind_eq (rt_u8 _ _ trivial)]
    have := rt_vec rt_i64 (Noop.optimize data) [] ⟨hl, h64⟩
    rw [List.append_nil] at this
    rw [Dec.bind_eq this]
    rfl
  simp [noopToData, unwrapDec, hdec, bind, Except.bind, Noop.optimize]

/-! ### RLE -/

/-- Runs of a sample list in order: start position and (mapped) last value. -/
def runs (f : F64 → F64) (i cur : Nat) : List F64 → List (Nat × F64)
  | [] => []
  | [v] => [(cur, f v)]
  | v :: w :: rest =>
    if !(w.feq v) then (cur, f v) :: runs f (i + 1) (i + 1) (w :: rest)
    else runs f (i + 1) cur (w :: rest)

/-- Every sample replaced by the (mapped) last value of its run. -/
def expand (f : F64 → F64) : List F64 → List F64
  | [] => []
  | [v] => [f v]
  | v :: w :: rest =>
    if !(w.feq v) then f v :: expand f (w :: rest)
    else (expand f (w :: rest)).headD FP.zero :: expand f (w :: rest)

theorem expand_length (f : F64 → F64) (d : List F64) : (expand f d).length = d.length := by
  fun_induction expand f d <;> simp_all

theorem expand_ne_nil {f : F64 → F64} {d : List F64} (h : d ≠ []) : expand f d ≠ [] := by
  intro he
  have := expand_length f d
  rw [he] at this
  exact h (List.length_eq_zero_iff.1 this.symm)

theorem runs_head {f : F64 → F64} {i cur : Nat} {d : List F64} (h : d ≠ []) :
    ∃ v rest, runs f i cur d = (cur, v) :: rest := by
  fun_induction runs f i cur d with
  | case1 => exact absurd rfl h
  | case2 => exact ⟨_, _, rfl⟩
  | case3 i cur v w rest hc ih => exact ⟨_, _, rfl⟩
  | case4 i cur v w rest hc ih => exact ih (by simp)

theorem runs_ge {f : F64 → F64} {i cur : Nat} {d : List F64} (hle : cur ≤ i) :
    ∀ p ∈ runs f i cur d, cur ≤ p.1 := by
  fun_induction runs f i cur d with
  | case1 => simp
  | case2 => simp
  | case3 i cur v w rest hc ih =>
    intro p hp
    rcases List.mem_cons.1 hp with rfl | hp
    · exact le_refl _
    · have := ih (le_refl _) p hp; omega
  | case4 i cur v w rest hc ih => exact ih (by omega)

theorem runs_lt {f : F64 → F64} {i cur : Nat} {d : List F64} (hle : cur ≤ i) :
    ∀ p ∈ runs f i cur d, p.1 < i + d.length := by
  fun_induction runs f i cur d with
  | case1 => simp
  | case2 => simp; omega
  | case3 i cur v w rest hc ih =>
    intro p hp
    rcases List.mem_cons.1 hp with rfl | hp
    · simp; omega
    · have := ih (le_refl _) p hp; simp at this ⊢; omega
  | case4 i cur v w rest hc ih =>
    intro p hp
    have := ih (by omega) p hp
    simp at this ⊢; omega

theorem runs_length_le {f : F64 → F64} {i cur : Nat} {d : List F64} : (runs f i cur d).length ≤ d.length := by
  fun_induction runs f i cur d with
  | case1 => simp
  | case2 => simp
  | case3 i cur v w rest hc ih => simp at ih ⊢; omega
  | case4 i cur v w rest hc ih => simp at ih ⊢; omega

theorem runs_sorted {f : F64 → F64} {i cur : Nat} {d : List F64} (hle : cur ≤ i) :
    (runs f i cur d).Pairwise (fun a b => a.1 < b.1) := by
  fun_induction runs f i cur d with
  | case1 => simp
  | case2 => simp
  | case3 i cur v w rest hc ih =>
    rw [List.pairwise_cons]
    refine ⟨fun p hp => ?_, ih (le_refl _)⟩
    have := runs_ge (f := f) (le_refl (i + 1)) p hp
    simp; omega
  | case4 i cur v w rest hc ih => exact ih (by omega)

/-- Association list flattened to (index, key) pairs. -/
def bflat (m : BMap) : List (Nat × Nat) := m.flatMap fun p => p.2.map fun i => (i, p.1)

theorem bflat_push (k i : Nat) (m : BMap) : (bflat (BMap.push k i m)).Perm (bflat m ++ [(i, k)]) := by
  induction m with
  | nil => simp [BMap.push, bflat]
  | cons p m ih =>
    obtain ⟨k', is⟩ := p
    unfold BMap.push
    split_ifs with h1 h2
    · simp only [bflat, List.flatMap_cons, List.map_cons, List.map_nil]
      exact List.perm_append_comm
    · subst h2
      simp only [bflat, List.flatMap_cons, List.map_append, List.map_cons, List.map_nil, List.append_assoc]
      exact List.Perm.append_left _ (List.perm_append_comm)
    · have e : ∀ m' : BMap, bflat ((k', is) :: m') = (is.map fun i => (i, k')) ++ bflat m' := fun m' => rfl
      rw [e, e, List.append_assoc]
      exact List.Perm.append_left _ ih

theorem bflat_loop (i cur : Nat) (d : List F64) (m : BMap) :
    ((bflat (rleLoop i cur d m)).map fun p => (p.1, (FP.ofBits p.2 : F64))).Perm
      ((bflat m).map (fun p => (p.1, (FP.ofBits p.2 : F64))) ++ runs id i cur d) := by
  fun_induction rleLoop i cur d m with
  | case1 => simp [runs]
  | case2 i cur v m =>
    have := (bflat_push v.toBits cur m).map fun p => (p.1, (FP.ofBits p.2 : F64))
    simpa [runs, FP.ofBits_toBits] using this
  | case3 i cur v w rest m hc ih =>
    refine ih.trans ?_
    have := (bflat_push v.toBits cur m).map fun p => (p.1, (FP.ofBits p.2 : F64))
    simp only [runs, hc, if_true]
    refine (List.Perm.append_right _ this).trans ?_
    simp [FP.ofBits_toBits]
  | case4 i cur v w rest m hc ih =>
    refine ih.trans ?_
    simp only [runs, hc]
    simp

theorem runs_map (f : F64 → F64) (i cur : Nat) (d : List F64) :
    (runs id i cur d).map (fun p => (p.1, f p.2)) = runs f i cur d := by
  fun_induction runs f i cur d with
  | case1 => simp [runs]
  | case2 => simp [runs]
  | case3 i cur v w rest hc ih => simp only [runs, hc, if_true, List.map_cons, ih, id]
  | case4 i cur v w rest hc ih => simp only [runs, hc]; simpa using ih

theorem insertByKey_perm {α : Type} (x : Nat × α) (l : List (Nat × α)) : (insertByKey x l).Perm (x :: l) := by
  induction l with
  | nil => exact .refl _
  | cons y ys ih =>
    simp only [insertByKey]
    split_ifs
    · exact .refl _
    · exact (ih.cons y).trans (.swap _ _ _)

theorem sortByKey_perm {α : Type} (l : List (Nat × α)) : (sortByKey l).Perm l := by
  induction l with
  | nil => exact .refl _
  | cons x xs ih => exact (insertByKey_perm x _).trans (ih.cons x)

theorem insertByKey_sorted {α : Type} (x : Nat × α) (l : List (Nat × α)) (h : l.Pairwise (fun a b => a.1 ≤ b.1)) :
    (insertByKey x l).Pairwise (fun a b => a.1 ≤ b.1) := by
  induction l with
  | nil => simp [insertByKey]
  | cons y ys ih =>
    rw [List.pairwise_cons] at h
    simp only [insertByKey]
    split_ifs with hc
    · refine List.pairwise_cons.2 ⟨fun b hb => ?_, List.pairwise_cons.2 h⟩
      rcases List.mem_cons.1 hb with rfl | hb
      · omega
      · have := h.1 b hb; omega
    · refine List.pairwise_cons.2 ⟨fun b hb => ?_, ih h.2⟩
      rcases List.mem_cons.1 ((insertByKey_perm x ys).mem_iff.1 hb) with rfl | hb
      · omega
      · exact h.1 b hb

theorem sortByKey_sorted {α : Type} (l : List (Nat × α)) : (sortByKey l).Pairwise (fun a b => a.1 ≤ b.1) := by
  induction l with
  | nil => exact .nil
  | cons x xs ih => exact insertByKey_sorted x _ ih

/-- A sort by distinct keys is determined by its elements. -/
theorem sortByKey_eq_of_perm {α : Type} {l l' : List (Nat × α)} (hp : l.Perm l')
    (hs : l'.Pairwise (fun a b => a.1 < b.1)) : sortByKey l = l' := by
  have h1 : (sortByKey l).Perm l' := (sortByKey_perm l).trans hp
  have h2 := sortByKey_sorted l
  have hinj : ∀ a ∈ l', ∀ b ∈ l', a.1 = b.1 → a = b := by
    intro a ha b hb hab
    obtain ⟨i, hi, rfl⟩ := List.getElem_of_mem ha
    obtain ⟨j, hj, rfl⟩ := List.getElem_of_mem hb
    rw [List.pairwise_iff_getElem] at hs
    rcases Nat.lt_trichotomy i j with h | h | h
    · have := hs i j hi hj h; omega
    · subst h; rfl
    · have := hs j i hj hi h; omega
  refine List.Perm.eq_of_pairwise (le := fun a b : Nat × α => a.1 ≤ b.1) ?_ h2 (hs.imp (fun h => by omega)) h1
  intro a b ha hb hab hba
  exact hinj a (h1.mem_iff.1 ha) b hb (by omega)

theorem fillRange_length (d : List F64) (s e : Nat) (v : F64) : (fillRange d s e v).length = d.length := by
  simp [fillRange]

theorem fillRange_take {d : List F64} {s e : Nat} {v : F64} (h1 : s ≤ e) (h2 : e ≤ d.length) :
    (fillRange d s e v).take e = d.take s ++ List.replicate (e - s) v := by
  apply List.ext_getElem
  · simp [fillRange]; omega
  · intro i hi1 hi2
    simp only [fillRange, List.getElem_take, List.getElem_mapIdx]
    simp [fillRange] at hi1
    by_cases hs : i < s
    · rw [List.getElem_append_left (by simp; omega)]
      simp [show ¬ s ≤ i by omega]
    · rw [List.getElem_append_right (by simp; omega)]
      simp [show s ≤ i by omega, hi1.1]

theorem rleFill_runs (f : F64 → F64) (i cur : Nat) (d : List F64) (B : List F64) (hne : d ≠ [])
    (hcur : cur ≤ i) (hB : B.length = i + d.length) :
    rleFill (i + d.length) (runs f i cur d) B =
      B.take cur ++ List.replicate (i - cur) ((expand f d).headD FP.zero) ++ expand f d := by
  fun_induction runs f i cur d generalizing B with
  | case1 => exact absurd rfl hne
  | case2 i cur v =>
    simp only [rleFill, expand, List.headD_cons]
    have h := fillRange_take (d := B) (s := cur) (e := i + 1) (v := f v) (by omega) (by simp at hB; omega)
    have hl : (fillRange B cur (i + 1) (f v)).length = i + 1 := by simp [fillRange_length, hB]
    rw [List.take_of_length_le (by omega)] at h
    simp only [List.length_singleton]
    rw [h, show i + 1 - cur = (i - cur) + 1 by omega, List.replicate_succ']
    simp
  | case3 i cur v w rest hc ih =>
    obtain ⟨v', rs, hr⟩ := runs_head (f := f) (i := i + 1) (cur := i + 1) (d := w :: rest) (by simp)
    simp only [hr, rleFill]
    have hlen : i + (v :: w :: rest).length = (i + 1) + (w :: rest).length := by simp; omega
    rw [← hr, hlen, ih _ (by simp) (le_refl _) (by rw [fillRange_length, hB, hlen])]
    rw [fillRange_take (by omega) (by rw [hB]; simp)]
    simp only [expand, hc, if_true, List.headD_cons, Nat.sub_self, List.replicate_zero, List.append_nil]
    rw [show i + 1 - cur = (i - cur) + 1 by omega, List.replicate_succ']
    simp
  | case4 i cur v w rest hc ih =>
    have hlen : i + (v :: w :: rest).length = (i + 1) + (w :: rest).length := by simp; omega
    rw [hlen, ih _ (by simp) (by omega) (by rw [hB, hlen])]
    simp only [expand, hc, Bool.false_eq_true, if_false, List.headD_cons]
    rw [show i + 1 - cur = (i - cur) + 1 by omega, List.replicate_succ']
    simp

theorem bmap_push_len (k i : Nat) (m : BMap) : (BMap.push k i m).length ≤ m.length + 1 := by
  induction m with
  | nil => simp [BMap.push]
  | cons p m ih =>
    obtain ⟨k', is⟩ := p
    unfold BMap.push
    split_ifs <;> simp at * <;> omega

theorem rleLoop_len (i cur : Nat) (d : List F64) (m : BMap) :
    (rleLoop i cur d m).length ≤ m.length + d.length := by
  fun_induction rleLoop i cur d m with
  | case1 => simp
  | case2 i cur v m => have := bmap_push_len v.toBits cur m; simp; omega
  | case3 i cur v w rest m hc ih => have := bmap_push_len v.toBits cur m; simp at ih ⊢; omega
  | case4 i cur v w rest m hc ih => simp at ih ⊢; omega

theorem mem_bflat_len {m : BMap} {p : Nat × List Nat} (h : p ∈ m) : p.2.length ≤ (bflat m).length := by
  have : (p.2.map fun i => (i, p.1)).Sublist (bflat m) := by
    unfold bflat
    obtain ⟨a, b, rfl⟩ := List.append_of_mem h
    simp only [List.flatMap_append, List.flatMap_cons]
    exact (List.sublist_append_left _ _).trans (List.sublist_append_right _ _)
  simpa using this.length_le

/-- The central RLE fact: decoding gives every sample the stored form of the last value of its run. -/
theorem rle_roundtrip (data : List F64) (bd : Bitdepth) (hlen : data.length < 2 ^ 64) (hne : data ≠ []) :
    rleToData data.length (IndexRLE.new data bd).enc = .ok (expand (castBD bd) data) := by
  set m := rleLoop 0 0 data [] with hm
  have hperm := bflat_loop 0 0 data []
  simp only [bflat, List.flatMap_nil, List.map_nil, List.nil_append] at hperm
  change ((bflat m).map fun p => (p.1, (FP.ofBits p.2 : F64))).Perm (runs id 0 0 data) at hperm
  have hflen : (bflat m).length ≤ data.length := by
    have := hperm.length_eq
    simp only [List.length_map] at this
    rw [this]; exact runs_length_le
  -- decoding
  have hitem : RTM (fun p : F64 × List Nat => p.2.length < 2 ^ 64 ∧ ∀ i ∈ p.2, i < 2 ^ 64)
      (fun p => encValue bd p.1 ++ encVec encVar p.2)
      ((decValue bd).bind fun v => (decVec decU64).bind fun is => Dec.pure (v, is))
      (fun p => (castBD bd p.1, p.2)) := by
    intro p rest hp
    rw [List.append_assoc, Dec.bind_eq (encValue_dec bd p.1 _), Dec.bind_eq (rt_vec rt_u64 p.2 rest hp)]
    rfl
  have hall : ∀ p ∈ (IndexRLE.new data bd).rle, p.2.length < 2 ^ 64 ∧ ∀ i ∈ p.2, i < 2 ^ 64 := by
    intro p hp
    obtain ⟨q, hq, rfl⟩ := List.mem_map.1 hp
    refine ⟨?_, ?_⟩
    · have h1 := mem_bflat_len hq
      have h2 : (bflat (rleLoop 0 0 data [])).length ≤ data.length := hflen
      simp only at h1 ⊢
      omega
    · intro i hi
      have h1 : (i, q.1) ∈ bflat m := List.mem_flatMap.2 ⟨q, hq, List.mem_map.2 ⟨i, hi, rfl⟩⟩
      have h2 : (i, (FP.ofBits q.1 : F64)) ∈ runs id 0 0 data :=
        hperm.mem_iff.1 (List.mem_map.2 ⟨(i, q.1), h1, rfl⟩)
      have := runs_lt (le_refl 0) _ h2
      simp at this
      omega
  have hrl : (IndexRLE.new data bd).rle.length < 2 ^ 64 := by
    have := rleLoop_len 0 0 data []
    simp [IndexRLE.new] at this ⊢
    omega
  have hdec : IndexRLE.dec (IndexRLE.new data bd).enc =
      some (⟨60, (IndexRLE.new data bd).rle.map (fun p => (castBD bd p.1, p.2)), bd⟩, []) := by
    unfold IndexRLE.dec IndexRLE.enc
    rw [List.append_assoc, Dec.bind_eq (rt_u8 _ _ trivial), Dec.bind_eq (rt_bitdepth _ _ trivial)]
    have := rtm_vec hitem (IndexRLE.new data bd).rle [] ⟨hrl, hall⟩
    rw [List.append_nil] at this
    simp only [IndexRLE.new] at this ⊢
    rw [Dec.bind_eq this]
    rfl
  simp only [rleToData, unwrapDec, hdec, bind, Except.bind]
  congr 1
  unfold IndexRLE.toData
  simp only
  -- flattened list is a permutation of the runs
  have hfl : (((IndexRLE.new data bd).rle.map (fun p => (castBD bd p.1, p.2))).flatMap
      fun p => p.2.map fun i => (i, p.1)).Perm (runs (castBD bd) 0 0 data) := by
    have h1 := hperm.map fun p : Nat × F64 => (p.1, castBD bd p.2)
    rw [runs_map] at h1
    have h2 : (((IndexRLE.new data bd).rle.map (fun p => (castBD bd p.1, p.2))).flatMap
        fun p => p.2.map fun i => (i, p.1)) =
        ((bflat m).map fun p => (p.1, (FP.ofBits p.2 : F64))).map fun p : Nat × F64 => (p.1, castBD bd p.2) := by
      simp only [IndexRLE.new, bflat, ← hm]
      simp only [List.flatMap_def, List.map_flatten, List.map_map]
      congr 1
      apply List.map_congr_left
      intro p _
      simp [Function.comp_def]
    rw [h2]
    exact h1
  rw [sortByKey_eq_of_perm hfl (runs_sorted (le_refl 0))]
  have := rleFill_runs (castBD bd) 0 0 data (List.replicate data.length FP.zero) hne (le_refl 0) (by simp)
  simpa using this

/-- `expand` in terms of indexes: position `i` gets the value at the last position of its run. -/
theorem expand_spec (f : F64 → F64) (d : List F64) (i : Nat) (hi : i < d.length) :
    ∃ j, i ≤ j ∧ ∃ hj : j < d.length,
      (∀ k (hk : k + 1 < d.length), i ≤ k → k < j → (d[k + 1]).feq d[k] = true) ∧
      (∀ hk : j + 1 < d.length, (d[j + 1]).feq d[j] = false) ∧
      (expand f d)[i]? = some (f d[j]) := by
  induction d generalizing i with
  | nil => simp at hi
  | cons v rest ih =>
    cases rest with
    | nil =>
      have : i = 0 := by simpa using hi
      subst this
      exact ⟨0, le_refl _, by simp, by simp, by simp, by simp [expand]⟩
    | cons w rest =>
      cases i with
      | zero =>
        by_cases hc : w.feq v = true
        · obtain ⟨j, h1, h2, h3, h4, h5⟩ := ih 0 (by simp)
          refine ⟨j + 1, by omega, by simpa using h2, ?_, ?_, ?_⟩
          · intro k hk hk0 hkj
            cases k with
            | zero => simpa using hc
            | succ k => exact h3 k (by simpa using hk) (by omega) (by omega)
          · intro hk; exact h4 (by simpa using hk)
          · have hne : expand f (w :: rest) ≠ [] := expand_ne_nil (by simp)
            simp only [expand, hc, Bool.not_true, Bool.false_eq_true, if_false, List.getElem?_cons_zero]
            rw [← List.head?_eq_getElem?] at h5
            rw [List.headD_eq_head?_getD, h5]
            simp
        · refine ⟨0, le_refl _, by simp, ?_, ?_, ?_⟩
          · intro k hk hk0 hkj; omega
          · intro hk; simpa using hc
          · simp [expand, hc]
      | succ i =>
        obtain ⟨j, h1, h2, h3, h4, h5⟩ := ih i (by simpa using hi)
        refine ⟨j + 1, by omega, by simpa using h2, ?_, ?_, ?_⟩
        · intro k hk hk0 hkj
          cases k with
          | zero => omega
          | succ k => exact h3 k (by simpa using hk) (by omega) (by omega)
        · intro hk; exact h4 (by simpa using hk)
        · unfold expand
          split_ifs <;> simpa using h5

end Atsc
