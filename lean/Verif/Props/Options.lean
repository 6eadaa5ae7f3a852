import Verif.Lemmas.Bits
import Verif.Spec.Options

/-!
# C53: checked proof options
-/

namespace Verif.Props
open ProofOptions
open Verif.Spec

/-- The options a checked constructor returns are the ones it is given. -/
theorem C53_options_unchanged (mode : BuildMode) (fieldBits : Nat) (blowup : UInt8) (q off : Nat)
    (g target : UInt8) (o : ProofOptions)
    (h : newWithCheckedSecurity mode fieldBits blowup q off g target = .ok o ∨
      newWithCheckedProvableSecurity mode fieldBits blowup q off g target = .ok o) :
    o = ⟨blowup, q, off, g⟩ := by
  rcases h with h | h
  all_goals
    first
    | unfold newWithCheckedSecurity at h
    | unfold newWithCheckedProvableSecurity at h
    obtain ⟨_, _, h⟩ := Outcome.bind_eq_ok.1 h
    obtain ⟨bound, _, h⟩ := Outcome.bind_eq_ok.1 h
    split at h
    · cases h
    · exact (Outcome.ok.inj h).symm

/-- C53 (conjectured security): options with a blowup factor `2^b` that the checked constructor
accepts have at least the requested number of conjectured security bits. In release builds this
needs the number of bits not to overflow or underflow. -/
theorem C53_conjectured_partial (mode : BuildMode) (fieldBits b : Nat) (blowup : UInt8) (q off : Nat)
    (g target : UInt8) (o : ProofOptions) (hb : blowup.toNat = 2 ^ b)
    (hmode : mode = .release → 1 ≤ g.toNat + b * q ∧ g.toNat + b * q ≤ 2^64)
    (h : newWithCheckedSecurity mode fieldBits blowup q off g target = .ok o) :
    (target.toNat : Int) ≤ conjecturedSecurity fieldBits b q g.toNat := by
  have hb8 : b < 8 := by
    by_contra hc
    have h1 : 2 ^ 8 ≤ 2 ^ b := Nat.pow_le_pow_right (by norm_num) (not_lt.1 hc)
    have h2 := blowup.toNat_lt
    omega
  unfold newWithCheckedSecurity at h
  obtain ⟨_, hf, h⟩ := Outcome.bind_eq_ok.1 h
  obtain ⟨bound, hbound, h⟩ := Outcome.bind_eq_ok.1 h
  rw [hb, trailingZeros_two_pow 8 b hb8] at hbound
  split at h
  · cases h
  rename_i hlt
  unfold checkFieldSecurity EXTENSION_DEGREE NUM_BITS_MAX_DOMAIN_SIZE at hf
  split at hf
  · cases hf
  rename_i hfield
  have hbnd : bound + 1 = g.toNat + b * q := by
    unfold usizeMulAddSub at hbound
    cases mode with
    | debug =>
      simp only at hbound
      split at hbound
      · have := Outcome.ok.inj hbound
        generalize b * q = m at *
        omega
      · cases hbound
    | release =>
      have hm := hmode rfl
      have := Outcome.ok.inj hbound
      generalize b * q = m at *
      omega
  unfold conjecturedSecurity
  have hc : ((b * q : Nat) : Int) = (b : Int) * q := by push_cast; rfl
  rw [← hc]
  generalize b * q = m at *
  omega

/-- The hypotheses are met: 55 queries with blowup 4 and 20 bits of grinding for 128 bits. -/
example : newWithCheckedSecurity .debug 252 4 55 1 20 128 = .ok ⟨4, 55, 1, 20⟩ ∧
    (4 : UInt8).toNat = 2 ^ 2 ∧ conjecturedSecurity 252 2 55 20 = 129 := by decide

/-- C53: conversely the constructor rejects options (with no overflow) below the requested number of
bits: one bit less than one more than the target is an error. -/
theorem C53_conjectured_rejects (fieldBits b : Nat) (blowup : UInt8) (q off : Nat)
    (g target : UInt8) (hb : blowup.toNat = 2 ^ b) (hq : q < 2^56) (h1 : 1 ≤ g.toNat + b * q)
    (h : conjecturedSecurity fieldBits b q g.toNat < target.toNat) :
    ∃ e, newWithCheckedSecurity .debug fieldBits blowup q off g target = .err e := by
  have hb8 : b < 8 := by
    by_contra hc
    have h1 : 2 ^ 8 ≤ 2 ^ b := Nat.pow_le_pow_right (by norm_num) (not_lt.1 hc)
    have h2 := blowup.toNat_lt
    omega
  have hm : b * q < 2 ^ 59 := by
    calc b * q ≤ 7 * q := Nat.mul_le_mul_right _ (by omega)
      _ < 2 ^ 59 := by omega
  have hg := g.toNat_lt
  unfold newWithCheckedSecurity checkFieldSecurity EXTENSION_DEGREE NUM_BITS_MAX_DOMAIN_SIZE
  split
  · exact ⟨_, rfl⟩
  rename_i hfield
  rw [hb, trailingZeros_two_pow 8 b hb8]
  unfold conjecturedSecurity at h
  have hc : ((b * q : Nat) : Int) = (b : Int) * q := by push_cast; rfl
  rw [← hc] at h
  have hok : (usizeMulAddSub .debug g.toNat b q 1 : Outcome InsecureOptionError Nat)
      = .ok (g.toNat + b * q - 1) := by
    unfold usizeMulAddSub
    simp only
    rw [if_pos]
    refine ⟨by omega, by omega, h1⟩
  simp only [Outcome.bind_ok, hok]
  generalize b * q = m at *
  rw [if_pos (by omega)]
  exact ⟨_, rfl⟩

/-- Met by 10 queries for 128 bits. -/
example : (4 : UInt8).toNat = 2 ^ 2 ∧ conjecturedSecurity 252 2 10 20 < (128 : UInt8).toNat := by
  decide

/-- C53, exactly: in both build modes, when the arithmetic does not overflow, the checked constructor
accepts the options if and only if the target is more than 40 bits below the field size and *strictly*
below the security of the queries and of grinding less one bit, so that options with exactly the requested
number of bits are rejected; the errors tell the two cases apart. -/
theorem C53_conjectured_exact (mode : BuildMode) (fieldBits b : Nat) (blowup : UInt8) (q off : Nat)
    (g target : UInt8) (hb : blowup.toNat = 2 ^ b) (hq : q < 2^56) (h1 : 1 ≤ g.toNat + b * q) :
    newWithCheckedSecurity mode fieldBits blowup q off g target
      = if fieldBits ≤ target.toNat + 40 then .err .fieldSize
        else if target.toNat + 1 < g.toNat + b * q then .ok ⟨blowup, q, off, g⟩
        else .err .securityBits := by
  have hb8 : b < 8 := by
    by_contra hc
    have h1 : 2 ^ 8 ≤ 2 ^ b := Nat.pow_le_pow_right (by norm_num) (not_lt.1 hc)
    have h2 := blowup.toNat_lt
    omega
  have hm : b * q < 2 ^ 59 := by
    calc b * q ≤ 7 * q := Nat.mul_le_mul_right _ (by omega)
      _ < 2 ^ 59 := by omega
  have hg := g.toNat_lt
  have hok : (usizeMulAddSub mode g.toNat b q 1 : Outcome InsecureOptionError Nat)
      = .ok (g.toNat + b * q - 1) := by
    unfold usizeMulAddSub
    generalize b * q = m at *
    cases mode
    · simp only
      rw [if_pos]
      refine ⟨by omega, by omega, h1⟩
    · simp only [Outcome.ok.injEq]
      omega
  unfold newWithCheckedSecurity checkFieldSecurity EXTENSION_DEGREE NUM_BITS_MAX_DOMAIN_SIZE
  rw [hb, trailingZeros_two_pow 8 b hb8, Nat.mul_one]
  simp only [hok]
  generalize b * q = m at *
  by_cases hf : fieldBits ≤ target.toNat + 40
  · rw [if_pos hf, if_pos hf]; rfl
  · rw [if_neg hf, if_neg hf, Outcome.bind_ok, Outcome.bind_ok]
    by_cases ht : target.toNat + 1 < g.toNat + m
    · rw [if_pos ht, if_neg (by omega)]; rfl
    · rw [if_neg ht, if_pos (by omega)]

/-- Met by 54 queries, which give 127 bits. -/
example : (4 : UInt8).toNat = 2 ^ 2 ∧ conjecturedSecurity 252 2 54 20 = (127 : UInt8).toNat ∧
    newWithCheckedSecurity .release 252 4 54 1 20 127 = .err .securityBits ∧
    newWithCheckedSecurity .release 252 4 54 1 20 126 = .ok ⟨4, 54, 1, 20⟩ := by decide

/-- C53: the presets for conjectured security pass the matching check over every field with enough
bits. -/
theorem C53_conjectured_presets (mode : BuildMode) (fieldBits off : Nat) (hf : 168 < fieldBits) :
    let check := fun (o : ProofOptions) target =>
      newWithCheckedSecurity mode fieldBits o.blowupFactor o.friNumberOfQueries o.cosetOffset
        o.grindingFactor target
    check (newSecure .conjecturable80Bits off) 80 = .ok (newSecure .conjecturable80Bits off) ∧
    check (newSecure .conjecturable100Bits off) 100 = .ok (newSecure .conjecturable100Bits off) ∧
    check (newSecure .conjecturable128Bits off) 128 = .ok (newSecure .conjecturable128Bits off) := by
  have hfield : ∀ t : UInt8, t.toNat ≤ 128 → checkFieldSecurity fieldBits t = .ok () := by
    intro t ht
    unfold checkFieldSecurity EXTENSION_DEGREE NUM_BITS_MAX_DOMAIN_SIZE
    rw [if_neg (by omega)]
  have h4 : trailingZeros 8 (4 : UInt8).toNat = 2 := by decide
  have h20 : (20 : UInt8).toNat = 20 := by decide
  have hb : ∀ q, q < 2^32 → (usizeMulAddSub mode 20 2 q 1 : Outcome InsecureOptionError Nat)
      = .ok (20 + 2 * q - 1) := by
    intro q hq
    cases mode
    · simp only [usizeMulAddSub]
      rw [if_pos (by omega)]
    · simp only [usizeMulAddSub]
      exact congrArg Outcome.ok (by omega)
  refine ⟨?_, ?_, ?_⟩ <;>
  · simp only [newWithCheckedSecurity, newSecure]
    rw [hfield _ (by decide)]
    simp only [Outcome.bind_ok, h4, h20]
    rw [hb _ (by norm_num)]
    rfl

example : 168 < 252 := by norm_num

/-- C53 fails in release builds: with no queries and no grinding the number of bits underflows and
every target is accepted. -/
theorem C53_release_underflow (fieldBits off : Nat) (blowup target : UInt8)
    (hf : target.toNat + 40 < fieldBits) :
    newWithCheckedSecurity .release fieldBits blowup 0 off 0 target = .ok ⟨blowup, 0, off, 0⟩ := by
  unfold newWithCheckedSecurity checkFieldSecurity EXTENSION_DEGREE NUM_BITS_MAX_DOMAIN_SIZE
  rw [if_neg (by omega)]
  simp only [usizeMulAddSub, Nat.mul_zero, Outcome.bind_ok]
  have ht := target.toNat_lt
  rw [if_neg]
  · rfl
  · have h0 : (0 : UInt8).toNat = 0 := rfl
    rw [h0]
    omega

example : (128 : UInt8).toNat + 40 < 252 := by decide

/-- C53 fails in debug builds: the same options make the constructor panic. -/
theorem C53_debug_underflow (fieldBits off : Nat) (blowup target : UInt8)
    (hf : target.toNat + 40 < fieldBits) :
    newWithCheckedSecurity .debug fieldBits blowup 0 off 0 target = .panic := by
  unfold newWithCheckedSecurity checkFieldSecurity EXTENSION_DEGREE NUM_BITS_MAX_DOMAIN_SIZE
  rw [if_neg (by omega)]
  rfl

/-- C53 fails for provable security: the check is inverted, so that the constructor accepts options
without a single query and without grinding for every target the field allows. -/
theorem C53_provable_accepts_insecure (mode : BuildMode) (fieldBits off : Nat)
    (blowup target : UInt8) (hf : target.toNat + 40 < fieldBits) :
    newWithCheckedProvableSecurity mode fieldBits blowup 0 off 0 target
      = .ok ⟨blowup, 0, off, 0⟩ ∧
    ∀ b, provableSecurity fieldBits b 0 0 < target.toNat := by
  constructor
  · unfold newWithCheckedProvableSecurity checkFieldSecurity EXTENSION_DEGREE
      NUM_BITS_MAX_DOMAIN_SIZE
    rw [if_neg (by omega)]
    have : ∀ b, (usizeMulDivAdd mode (0 : UInt8).toNat b 0 2 : Outcome InsecureOptionError Nat)
        = .ok 0 := by
      intro b
      cases mode
      · unfold usizeMulDivAdd
        simp
      · unfold usizeMulDivAdd
        simp
    simp only [Outcome.bind_ok, this]
    rw [if_neg (by omega)]
    rfl
  · intro b
    unfold provableSecurity
    simp only [Nat.cast_zero, mul_zero]
    omega

/-- C53 fails for provable security, exactly: in both build modes, when the arithmetic does not overflow,
the checked constructor accepts the options if and only if the target is more than 40 bits below the field
size and *at least* the grinding bits and half of the queries times the number of leading zeros of the
blowup factor. -/
theorem C53_provable_exact (mode : BuildMode) (fieldBits : Nat) (blowup : UInt8) (q off : Nat)
    (g target : UInt8) (hq : q < 2^56) :
    newWithCheckedProvableSecurity mode fieldBits blowup q off g target
      = if fieldBits ≤ target.toNat + 40 then .err .fieldSize
        else if g.toNat + leadingZeros 8 blowup.toNat * q / 2 ≤ target.toNat then .ok ⟨blowup, q, off, g⟩
        else .err .securityBits := by
  have hb8 : leadingZeros 8 blowup.toNat ≤ 8 := by
    unfold leadingZeros
    cases hfind : (List.range 8).find? fun i => blowup.toNat.testBit (8 - 1 - i) with
    | none => simp
    | some i => exact (List.mem_range.1 (List.mem_of_find?_eq_some hfind)).le
  have hm : leadingZeros 8 blowup.toNat * q < 2 ^ 59 + 1 := by
    calc leadingZeros 8 blowup.toNat * q ≤ 8 * q := Nat.mul_le_mul_right _ (by omega)
      _ < 2 ^ 59 + 1 := by omega
  have hg := g.toNat_lt
  have hok : (usizeMulDivAdd mode g.toNat (leadingZeros 8 blowup.toNat) q 2 : Outcome InsecureOptionError Nat)
      = .ok (g.toNat + leadingZeros 8 blowup.toNat * q / 2) := by
    unfold usizeMulDivAdd
    generalize leadingZeros 8 blowup.toNat * q = m at *
    cases mode
    · simp only
      rw [if_pos]
      refine ⟨by omega, by omega⟩
    · simp only [Outcome.ok.injEq]
      omega
  unfold newWithCheckedProvableSecurity checkFieldSecurity EXTENSION_DEGREE NUM_BITS_MAX_DOMAIN_SIZE
  simp only [hok, Nat.mul_one]
  generalize leadingZeros 8 blowup.toNat * q = m at *
  by_cases hf : fieldBits ≤ target.toNat + 40
  · rw [if_pos hf, if_pos hf]; rfl
  · rw [if_neg hf, if_neg hf, Outcome.bind_ok, Outcome.bind_ok]
    by_cases ht : g.toNat + m / 2 ≤ target.toNat
    · rw [if_pos ht, if_neg (by omega)]; rfl
    · rw [if_neg ht, if_pos (by omega)]

/-- One query with blowup 4 and one bit of grinding are accepted for 128 bits, 80 queries are not. -/
example : newWithCheckedProvableSecurity .release 252 4 1 1 1 128 = .ok ⟨4, 1, 1, 1⟩ ∧
    newWithCheckedProvableSecurity .release 252 4 80 1 1 128 = .err .securityBits := by decide

/-- C53 fails for provable security, for all numbers of queries: the product of the queries and the leading zeros of the
blowup factor is taken modulo `2^64` in release builds and makes debug builds panic when it does not fit in 64 bits. -/
theorem C53_provable_overflow (fieldBits : Nat) (blowup : UInt8) (q off : Nat) (g target : UInt8)
    (hf : target.toNat + 40 < fieldBits) :
    (newWithCheckedProvableSecurity .release fieldBits blowup q off g target
      = if g.toNat + leadingZeros 8 blowup.toNat * q % 2 ^ 64 / 2 ≤ target.toNat then .ok ⟨blowup, q, off, g⟩
        else .err .securityBits) ∧
    (2 ^ 64 ≤ leadingZeros 8 blowup.toNat * q →
      newWithCheckedProvableSecurity .debug fieldBits blowup q off g target = .panic) := by
  have hg := g.toNat_lt
  have hmod := Nat.mod_lt (leadingZeros 8 blowup.toNat * q) (show 2 ^ 64 > 0 by norm_num)
  unfold newWithCheckedProvableSecurity checkFieldSecurity EXTENSION_DEGREE NUM_BITS_MAX_DOMAIN_SIZE
  rw [if_neg (by omega), Outcome.bind_ok, Outcome.bind_ok]
  constructor
  · simp only [usizeMulDivAdd, Outcome.bind_ok]
    generalize leadingZeros 8 blowup.toNat * q % 2 ^ 64 = m at *
    rw [Nat.mod_eq_of_lt (by omega)]
    by_cases ht : g.toNat + m / 2 ≤ target.toNat
    · rw [if_pos ht, if_neg (by omega)]; rfl
    · rw [if_neg ht, if_pos (by omega)]
  · intro hq
    simp only [usizeMulDivAdd]
    rw [if_neg (by omega)]
    rfl

/-- With a blowup factor of 8 (four leading zeros), `2^62` queries give a product of `2^64`: release builds accept them
for a target of no bits, although they refuse a single one, and debug builds panic. -/
example : newWithCheckedProvableSecurity .release 252 8 1 1 0 0 = .err .securityBits ∧
    newWithCheckedProvableSecurity .release 252 8 (2 ^ 62) 1 0 0 = .ok ⟨8, 2 ^ 62, 1, 0⟩ ∧
    newWithCheckedProvableSecurity .debug 252 8 (2 ^ 62) 1 0 0 = .panic := by decide

/-- C53 fails for provable security: the presets do not pass the matching check. -/
theorem C53_provable_presets_rejected (mode : BuildMode) (fieldBits off : Nat)
    (hf : 168 < fieldBits) :
    let check := fun (o : ProofOptions) target =>
      newWithCheckedProvableSecurity mode fieldBits o.blowupFactor o.friNumberOfQueries
        o.cosetOffset o.grindingFactor target
    check (newSecure .provable80Bits off) 80 = .err .securityBits ∧
    check (newSecure .provable100Bits off) 100 = .err .securityBits ∧
    check (newSecure .provable128Bits off) 128 = .err .securityBits := by
  have hfield : ∀ t : UInt8, t.toNat ≤ 128 → checkFieldSecurity fieldBits t = .ok () := by
    intro t ht
    unfold checkFieldSecurity EXTENSION_DEGREE NUM_BITS_MAX_DOMAIN_SIZE
    rw [if_neg (by omega)]
  have h4 : leadingZeros 8 (4 : UInt8).toNat = 5 := by decide
  have h20 : (20 : UInt8).toNat = 20 := by decide
  have hb : ∀ q, q < 2^32 → (usizeMulDivAdd mode 20 5 q 2 : Outcome InsecureOptionError Nat)
      = .ok (20 + 5 * q / 2) := by
    intro q hq
    cases mode
    · simp only [usizeMulDivAdd]
      rw [if_pos (by omega)]
    · simp only [usizeMulDivAdd]
      rw [Nat.mod_eq_of_lt (a := 5 * q) (by omega)]
      exact congrArg Outcome.ok (by omega)
  refine ⟨?_, ?_, ?_⟩ <;>
  · simp only [newWithCheckedProvableSecurity, newSecure]
    rw [hfield _ (by decide)]
    simp only [Outcome.bind_ok, h4, h20]
    rw [hb _ (by norm_num)]
    rfl

/-- C53: the options behind the presets do have the provable security they are named after. -/
theorem C53_provable_presets_secure (fieldBits off : Nat) (hf : 168 < fieldBits) :
    let bits := fun (o : ProofOptions) =>
      provableSecurity fieldBits (trailingZeros 8 o.blowupFactor.toNat) o.friNumberOfQueries
        o.grindingFactor.toNat
    80 ≤ bits (newSecure .provable80Bits off) ∧ 100 ≤ bits (newSecure .provable100Bits off) ∧
    128 ≤ bits (newSecure .provable128Bits off) := by
  have h4 : trailingZeros 8 (4 : UInt8).toNat = 2 := by decide
  have h20 : (20 : UInt8).toNat = 20 := by decide
  simp only [newSecure, h4, h20, provableSecurity]
  refine ⟨?_, ?_, ?_⟩
  · push_cast
    omega
  · push_cast; omega
  · push_cast; omega

/-- The hypotheses of the theorems above are met by the field of Cairo and 128 bits. -/
example : newWithCheckedSecurity .debug 252 4 0 1 0 128 = .panic ∧
    newWithCheckedProvableSecurity .release 252 4 0 1 0 128 = .ok ⟨4, 0, 1, 0⟩ ∧
    (128 : UInt8).toNat + 40 < 252 ∧ 168 < 252 :=
  ⟨C53_debug_underflow 252 1 4 128 (by decide), (C53_provable_accepts_insecure .release 252 1 4 128 (by decide)).1,
    by decide, by norm_num⟩

end Verif.Props
