import Verif.Lemmas.Bytes
import Verif.Model.Transcript
import Mathlib.Tactic.Ring

/-!
# C50: challenges as field elements, C51: the out-of-domain point
-/

namespace Verif.Props

theorem beNat_cons (b : UInt8) (l : Bytes) : beNat (b :: l) = b.toNat * 256 ^ l.length + beNat l := by
  induction l using List.reverseRecOn with
  | nil => simp [beNat]
  | append_singleton l x ih =>
    rw [← List.cons_append, beNat_append_singleton, ih, beNat_append_singleton, List.length_append]
    simp only [List.length_cons, List.length_nil, pow_add]
    ring

theorem mask_toNat (b : UInt8) (k : Nat) (hk : k < 8) :
    (b &&& ((if 8 - k < 8 then UInt8.ofNat (2 ^ (8 - k)) else 0) - 1)).toNat
      = b.toNat % 2 ^ (8 - k) := by
  rw [UInt8.toNat_and]
  have : ((if 8 - k < 8 then UInt8.ofNat (2 ^ (8 - k)) else 0) - 1 : UInt8).toNat
      = 2 ^ (8 - k) - 1 := by
    interval_cases k <;> decide
  rw [this, Nat.and_two_pow_sub_one_eq_mod]

theorem clearBits_spec (bits : Nat) (l : Bytes) (h : bits < 8 * l.length) :
    ∃ r, clearBits bits l = .ok r ∧ r.length = l.length ∧
      beNat r = beNat l % 2 ^ (8 * l.length - bits) := by
  induction l generalizing bits with
  | nil => simp at h
  | cons b l ih =>
    have hlen : (b :: l).length = l.length + 1 := rfl
    rw [hlen] at h ⊢
    unfold clearBits
    have hlt := beNat_lt l
    have h256 : (256 : Nat) ^ l.length = 2 ^ (8 * l.length) := by
      rw [pow_mul]; norm_num
    by_cases hb : 8 ≤ bits
    · obtain ⟨r, hr, hl, hv⟩ := ih (bits - 8) (by omega)
      rw [if_pos hb, hr]
      refine ⟨0 :: r, rfl, by simp [hl], ?_⟩
      rw [beNat_cons, beNat_cons, hv, show 8 * (l.length + 1) - bits = 8 * l.length - (bits - 8) by omega]
      have hd : 2 ^ (8 * l.length - (bits - 8)) ∣ b.toNat * 256 ^ l.length := by
        rw [h256]
        exact (pow_dvd_pow 2 (by omega)).mul_left _
      rw [Nat.add_mod, Nat.mod_eq_zero_of_dvd hd]
      simp
    · rw [if_neg hb]
      refine ⟨_, rfl, rfl, ?_⟩
      rw [beNat_cons, mask_toNat b bits (by omega), beNat_cons]
      have he : (2 : Nat) ^ (8 * (l.length + 1) - bits) = 2 ^ (8 - bits) * 256 ^ l.length := by
        rw [h256, ← pow_add]; congr 1; omega
      generalize hM : (256 : Nat) ^ l.length = M at *
      have hMpos : 0 < M := by omega
      rw [he, mul_comm (2 ^ (8 - bits)) M, Nat.mod_mul,
        show b.toNat * M + beNat l = beNat l + M * b.toNat by ring,
        Nat.add_mul_mod_self_left, Nat.mod_eq_of_lt hlt, Nat.add_mul_div_left _ _ hMpos,
        Nat.div_eq_of_lt hlt, Nat.zero_add]
      ring

/-- C50: for a field of `fieldBits` bits (at least 2, at most 257) the challenge is the big-endian
number in the digest with all but the `fieldBits - 1` low bits cleared. -/
theorem C50_randomness_masked (fieldBits : Nat) (h2 : 2 ≤ fieldBits) (h257 : fieldBits ≤ 257)
    (d : Commitment) :
    randomnessToField fieldBits d = .ok ((beNat d.val % 2 ^ (fieldBits - 1) : Nat) : FE) := by
  obtain ⟨r, hr, hl, hv⟩ := clearBits_spec (256 - (fieldBits - 1)) d.val (by rw [d.property]; omega)
  unfold randomnessToField
  rw [if_neg (by omega), hr]
  simp only [Outcome.bind_ok]
  rw [d.property] at hl hv
  unfold feFromBytesBe
  rw [if_neg (by omega), List.take_of_length_le (by omega), hv]
  rw [show 8 * 32 - (256 - (fieldBits - 1)) = fieldBits - 1 by omega]
  rfl

/-- C50: for Stark252 (252 bits) the representative of the challenge is the low 251 bits of the
digest: no reduction takes place. -/
theorem C50_no_reduction (d : Commitment) :
    ∃ x, randomnessToField 252 d = .ok x ∧ x.val = beNat d.val % 2 ^ 251 ∧ x.val < P := by
  refine ⟨_, C50_randomness_masked 252 (by norm_num) (by norm_num) d, ?_, ZMod.val_lt _⟩
  rw [ZMod.val_natCast]
  exact Nat.mod_eq_of_lt (lt_trans (Nat.mod_lt _ (by positivity)) (by rw [P_eq]; norm_num))

/-- C50: two digests give the same challenge exactly when they agree on the kept bits. -/
theorem C50_equal_iff (d e : Commitment) :
    randomnessToField 252 d = randomnessToField 252 e ↔
      beNat d.val % 2 ^ 251 = beNat e.val % 2 ^ 251 := by
  obtain ⟨x, hx, hxv, -⟩ := C50_no_reduction d
  obtain ⟨y, hy, hyv, -⟩ := C50_no_reduction e
  rw [hx, hy, ← hxv, ← hyv]
  constructor
  · exact fun h => congrArg ZMod.val (Outcome.ok.inj h)
  · exact fun h => congrArg Outcome.ok (ZMod.val_injective P h)

/-- C50: unbiased: every field element below `2^251` is the challenge of exactly `2^5` digests, which
are its big-endian encodings with any five top bits. -/
theorem C50_unbiased (x : FE) (hx : x.val < 2 ^ 251) (d : Commitment) :
    randomnessToField 252 d = .ok x ↔ ∃ k < 2 ^ 5, d.val = beBytes 32 (k * 2 ^ 251 + x.val) := by
  obtain ⟨y, hy, hyv, -⟩ := C50_no_reduction d
  have hlt := beNat_lt d.val
  rw [d.property] at hlt
  have hb : beBytes 32 (beNat d.val) = d.val := by
    have := beBytes_beNat d.val
    rwa [d.property] at this
  constructor
  · intro h
    have hxy : y = x := Outcome.ok.inj (hy.symm.trans h)
    subst hxy
    refine ⟨beNat d.val / 2 ^ 251, ?_, ?_⟩
    · rw [Nat.div_lt_iff_lt_mul (by positivity)]
      calc _ < 256 ^ 32 := hlt
        _ = _ := by norm_num
    · rw [hyv, Nat.mul_comm, Nat.div_add_mod, hb]
  · rintro ⟨k, hk, hd⟩
    rw [hy]
    refine congrArg Outcome.ok (ZMod.val_injective P ?_)
    rw [hyv, hd, beNat_beBytes _ _ (by omega), Nat.mul_comm, Nat.mul_add_mod,
      Nat.mod_eq_of_lt hx]

/-- A digest whose top bits are cleared: 0xff...ff gives `2^251 - 1`. -/
example : randomnessToField 252 ⟨List.replicate 32 255, List.length_replicate⟩
    = .ok ((2 ^ 251 - 1 : Nat) : FE) := by
  rw [C50_randomness_masked _ (by norm_num) (by norm_num)]
  exact congrArg (fun n : Nat => Outcome.ok (n : FE)) (by decide)

section
open Transcript
variable {T F : Type} [DecidableEq F]

/-- C51: the point is the first challenge that lies outside both domains, and the transcript is the
one after sampling it. -/
theorem C51_outside (tr : Transcript T) (ofDigest : Commitment → F) (lde trace : List F) (t : T)
    (z : F) (t' : T) :
    tr.sampleZOod ofDigest lde trace t = some (z, t') ↔
      z ∉ lde ∧ z ∉ trace ∧ ∃ k, (z, t') = tr.toField ofDigest (tr.after k t) ∧
        ∀ j < k, (tr.toField ofDigest (tr.after j t)).1 ∈ lde ∨
          (tr.toField ofDigest (tr.after j t)).1 ∈ trace := by
  classical
  unfold sampleZOod
  constructor
  · intro h
    split at h
    · rename_i hex
      have hspec := Nat.find_spec hex
      have hz := Option.some.inj h
      rw [hz] at hspec
      refine ⟨hspec.1, hspec.2, Nat.find hex, hz.symm, fun j hj => ?_⟩
      have := Nat.find_min hex hj
      tauto
    · cases h
  · rintro ⟨h1, h2, k, hk, hmin⟩
    have hex : ∃ k, (tr.toField ofDigest (tr.after k t)).1 ∉ lde ∧
        (tr.toField ofDigest (tr.after k t)).1 ∉ trace := ⟨k, by rw [← hk]; exact ⟨h1, h2⟩⟩
    rw [dif_pos hex]
    have hf : Nat.find hex = k := by
      rw [Nat.find_eq_iff]
      refine ⟨by rw [← hk]; exact ⟨h1, h2⟩, fun j hj => ?_⟩
      have := hmin j hj
      tauto
    rw [hf, hk]

/-- A transcript counting up from 0, for the example. -/
def counting : Transcript UInt8 where
  init := 0
  append := fun t _ => t
  challenge := fun t => (⟨List.replicate 31 0 ++ [t], rfl⟩, t + 1)

/-- With the domains {0, 1} and {2} the sampled point is 3. -/
example : counting.sampleZOod (fun d => d.val.getLast?) [some 0, some 1] [some 2] 0
    = some (some 3, 4) := by
  rw [C51_outside]
  refine ⟨by decide, by decide, 3, by decide, by decide⟩

end
end Verif.Props
