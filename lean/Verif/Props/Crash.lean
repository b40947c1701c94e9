import Verif.Props.Files
import Verif.Props.Stream
/- C71: a `.bro` file whose writing was cut short. -/
namespace Atsc

/-- C71: let `bs` be what compressing `data` produces, and let only the first `k` bytes of it have reached the file. Then uncompressing that file
never succeeds: with fewer than 12 bytes it returns an I/O error and changes no file, with more it panics before writing anything. -/
theorem C71_cut_never_uncompresses (env : Env) (hE : env.E.Lawful) (data : List F64) (a : CompArgs) (ha : a.Valid) (hp : FewEnough env.p data) :
    ∃ bs, compressData env.E env.p data a = .ok bs ∧ (bs.length < 2 ^ 64 → ∀ k, k < bs.length → ∀ (args : RunArgs) (fs : Fs) (path : FPath),
      args.uncompress = true → fs path = some (bs.take k) →
        (k < 12 → processSingle env args fs path = .ok (fs, .error .io)) ∧ (12 ≤ k → ∃ e, processSingle env args fs path = .error e)) := by
  obtain ⟨ex, s, h1, h2, h3, h4, h5⟩ := pipeline env.E hE env.p data a ha hp
  refine ⟨_, h2, fun hl k hk args fs path hu hf => ?_⟩
  have hlen : (s.toBytes.take k).length = k := by rw [List.length_take]; omega
  unfold processSingle
  rw [if_pos hu, hf]
  dsimp only
  refine ⟨fun h => ?_, fun h => ?_⟩
  · rw [show broRead (s.toBytes.take k) = .eof by unfold broRead; rw [if_pos (by rw [hlen]; exact h)]]
  · obtain ⟨e, he⟩ := fromBytes_prefix (pipeline_fits h1 (fun x hx => (h4 x hx).2.2.1) hl) hk
    have hb : broRead (s.toBytes.take k) = .bytes (s.toBytes.take k) := by
      unfold broRead
      rw [if_neg (by rw [hlen]; omega), if_pos]
      rw [List.take_take, Nat.min_eq_left (by omega)]
      rfl
    rw [hb]
    dsimp only
    unfold decompressData
    rw [he]
    exact ⟨e, rfl⟩

/-- C71, the complete file for comparison: nothing but the whole content is accepted, so there is no cut point at which a partial result is written. -/
theorem C71_only_whole (env : Env) (hE : env.E.Lawful) (data : List F64) (a : CompArgs) (ha : a.Valid) (hp : FewEnough env.p data)
    (bs : Bytes) (hbs : compressData env.E env.p data a = .ok bs) (hl : bs.length < 2 ^ 64) (c : Bytes) (hc : c <+: bs) (args : RunArgs) (hu : args.uncompress = true)
    (fs fs' : Fs) (path : FPath) (hf : fs path = some c) (h : processSingle env args fs path = .ok (fs', .ok ())) : c = bs := by
  obtain ⟨bs', g1, g2⟩ := C71_cut_never_uncompresses env hE data a ha hp
  rw [hbs] at g1
  obtain rfl := Except.ok.inj g1
  by_contra hne
  have hlt : c.length < bs.length := by
    rcases Nat.lt_or_ge c.length bs.length with h | h
    · exact h
    · exact absurd (hc.eq_of_length_le h) hne
  have e : c = bs.take c.length := (List.prefix_iff_eq_take.1 hc)
  obtain ⟨k1, k2⟩ := g2 hl c.length hlt args fs path hu (by rw [hf]; exact congrArg some e)
  rcases Nat.lt_or_ge c.length 12 with h12 | h12
  · rw [k1 h12] at h; cases h
  · obtain ⟨e, he⟩ := k2 h12
    rw [he] at h; cases h

/-- C71 for any file at all, also one atsc did not write: if the whole content uncompresses, no cut of it uncompresses to anything else. -/
theorem C71_any_file (E : Ext) (bs : Bytes) (k : Nat) (out out' : List F64) (h : decompressData E bs = .ok out) (h' : decompressData E (bs.take k) = .ok out') :
    out' = out := by
  unfold decompressData at h h'
  obtain ⟨s, h1, h2⟩ := bind_ok_iff.1 h
  obtain ⟨t, g1, g2⟩ := bind_ok_iff.1 h'
  have := C03_accepted_input_extends (bs.take k) (bs.drop k) t g1
  rw [List.take_append_drop, h1] at this
  obtain rfl := Except.ok.inj this
  rw [h2] at g2
  exact (Except.ok.inj g2).symm

/-- A file with three bytes after the stream: cutting them off changes nothing. -/
example : okAnd (compressData Ext.dummy .debug [F64.lit 5, F64.lit 6] { compressor := .rle, error := 3, level := 0 }) (fun bs =>
    okAnd (decompressData Ext.dummy (bs ++ [1, 2, 3])) fun out => okAnd (decompressData Ext.dummy ((bs ++ [1, 2, 3]).take (bs.length + 1))) fun out' => out = out') = true := by
  decide +kernel

/-- C71 on a concrete file. -/
example : okAnd (compressData Ext.dummy .debug [F64.lit 5, F64.lit 6] { compressor := .rle, error := 3, level := 0 }) (fun bs =>
    decide (20 < bs.length) && decide (decompressData Ext.dummy (bs.take (bs.length - 1)) = .error .unwrap)) = true := by decide +kernel

end Atsc
