import Verif.Examples.SmallEnv

/-!
# A small environment over the Stark field for the examples

Not part of the model of the code.
-/

namespace Verif.Examples

/-- A transcript that counts, and hash functions that keep some bytes of their input. -/
def envStark : Env FE UInt8 where
  ta := starkRoots
  tr := counter
  toBytes := fun x => [UInt8.ofNat x.val]
  ofDigest := fun d => ((d.val.getLastD 0).toNat : FE)
  hashes :=
    { leafBatch := fun l => digest (UInt8.ofNat (l.headD 0).val)
      leaf := fun x => digest (UInt8.ofNat x.val)
      node := fun a b => digest (a.val.getLastD 0 + 2 * b.val.getLastD 0) }
  keccak := fun _ => digest 0

theorem afterStark (k : Nat) (t : UInt8) : envStark.tr.after k t = t + UInt8.ofNat k := after17 0 k t

theorem toFieldStark (t : UInt8) : envStark.tr.toField envStark.ofDigest t = ((t.toNat : FE), t + 1) := rfl

/-- The sampling of the out-of-domain point ends when the two lists are short. -/
theorem sampleZOodStark (lde trace : List FE) (t : UInt8) (h : lde.length + trace.length < 256) :
    envStark.tr.sampleZOod envStark.ofDigest lde trace t ≠ none := by
  classical
  obtain ⟨x, hx256, hx⟩ : ∃ x < 256, ((x : Nat) : FE) ∉ (lde ++ trace).toFinset := by
    by_contra hcc
    push Not at hcc
    have h1 : (Finset.range 256).image (fun n : Nat => (n : FE)) ⊆ (lde ++ trace).toFinset := by
      intro y hy
      obtain ⟨n, hn, rfl⟩ := Finset.mem_image.mp hy
      exact hcc n (Finset.mem_range.mp hn)
    have h2 := Finset.card_le_card h1
    have h3 := List.toFinset_card_le (lde ++ trace)
    rw [Finset.card_image_of_injOn, Finset.card_range, List.length_append] at *
    · omega
    · intro m hm n hn hmn
      have hm' := Finset.mem_range.mp hm
      have hn' := Finset.mem_range.mp hn
      have := congrArg ZMod.val hmn
      have hP : 256 < P := by rw [P_eq]; norm_num
      rwa [ZMod.val_natCast, ZMod.val_natCast, Nat.mod_eq_of_lt (by omega), Nat.mod_eq_of_lt (by omega)] at this
  simp only [List.mem_toFinset, List.mem_append, not_or] at hx
  unfold Transcript.sampleZOod
  rw [dif_pos]
  · simp
  · refine ⟨(UInt8.ofNat x - t).toNat, ?_⟩
    rw [afterStark, toFieldStark, UInt8.ofNat_toNat, UInt8.add_comm, UInt8.sub_add_cancel, UInt8.toNat_ofNat']
    rw [Nat.mod_eq_of_lt (by omega)]
    exact hx

/-- A nonce for the target one exists. -/
theorem generateNonce_stark (challenge : Commitment) : Grinding.generateNonce envStark.keccak challenge 1 ≠ none := by
  rw [Ne, Props.C52_search_fails_iff]
  intro h
  refine h 0 (by norm_num) ⟨by norm_num, ?_⟩
  show 2 ^ 1 ∣ beNat ((digest 0).val.take 8)
  decide +kernel

/-- The same with challenges far from the addresses and offsets of a run. -/
def envFar : Env FE UInt8 := { envStark with
  ofDigest := fun d => ((d.val.getLastD 0).toNat : FE) + (2 ^ 200 : Nat) }

theorem toFieldFar (t : UInt8) :
    envFar.tr.toField envFar.ofDigest t = ((t.toNat : FE) + (2 ^ 200 : Nat), t + 1) := rfl

/-- The sampling of the out-of-domain point ends when the two lists are short. -/
theorem sampleZOodFar (lde trace : List FE) (t : UInt8) (h : lde.length + trace.length < 256) :
    envFar.tr.sampleZOod envFar.ofDigest lde trace t ≠ none := by
  classical
  obtain ⟨x, hx256, hx⟩ : ∃ x < 256, ((x : Nat) : FE) + (2 ^ 200 : Nat) ∉ (lde ++ trace).toFinset := by
    by_contra hcc
    push Not at hcc
    have h1 : (Finset.range 256).image (fun n : Nat => (n : FE) + (2 ^ 200 : Nat))
        ⊆ (lde ++ trace).toFinset := by
      intro y hy
      obtain ⟨n, hn, rfl⟩ := Finset.mem_image.mp hy
      exact hcc n (Finset.mem_range.mp hn)
    have h2 := Finset.card_le_card h1
    have h3 := List.toFinset_card_le (lde ++ trace)
    rw [Finset.card_image_of_injOn, Finset.card_range, List.length_append] at *
    · omega
    · intro m hm n hn hmn
      have hm' := Finset.mem_range.mp hm
      have hn' := Finset.mem_range.mp hn
      have := congrArg ZMod.val (add_right_cancel hmn)
      have hP : 256 < P := by rw [P_eq]; norm_num
      rwa [ZMod.val_natCast, ZMod.val_natCast, Nat.mod_eq_of_lt (by omega), Nat.mod_eq_of_lt (by omega)] at this
  simp only [List.mem_toFinset, List.mem_append, not_or] at hx
  unfold Transcript.sampleZOod
  rw [dif_pos]
  · simp
  · refine ⟨(UInt8.ofNat x - t).toNat, ?_⟩
    have ha : ∀ k, envFar.tr.after k t = t + UInt8.ofNat k := fun k => afterStark k t
    rw [ha, toFieldFar, UInt8.ofNat_toNat, UInt8.add_comm, UInt8.sub_add_cancel, UInt8.toNat_ofNat']
    rw [Nat.mod_eq_of_lt (by omega)]
    exact hx

end Verif.Examples
