import Verif.Model.Decode
import Verif.Spec.Cairo
import Verif.Lemmas.Bytes
import Verif.Spec.Decode

/-! Helper lemmas about instruction decoding. -/

namespace Verif
open Spec

theorem beNat_append (a b : Bytes) : beNat (a ++ b) = beNat a * 256 ^ b.length + beNat b := by
  induction b using List.reverseRecOn with
  | nil => simp [beNat]
  | append_singleton b x ih =>
    rw [← List.append_assoc, beNat_append_singleton, ih, beNat_append_singleton,
      List.length_append, List.length_singleton, pow_succ]
    ring

theorem lastNim_eq (v : FE) : lastNim v = v.val % 2 ^ 64 := by
  have h := beNat_append ((feToBytesBe v).take 24) ((feToBytesBe v).drop 24)
  rw [List.take_append_drop] at h
  have hv : beNat (feToBytesBe v) = v.val := beNat_beBytes _ _ (fe_val_lt v)
  have hl : ((feToBytesBe v).drop 24).length = 8 := by simp
  have hlt := beNat_lt ((feToBytesBe v).drop 24)
  rw [hl] at h hlt
  rw [hv] at h
  unfold lastNim
  norm_num at h hlt ⊢
  omega

theorem flagField_eq (mask off len : Nat) (v : FE) (hm : mask >>> off = 2 ^ len - 1)
    (hb : 48 + off + len ≤ 64) : flagField mask off v = bits v.val (48 + off) len := by
  unfold flagField bits
  rw [lastNim_eq, Nat.shiftRight_and_distrib, hm, Nat.and_two_pow_sub_one_eq_mod,
    ← Nat.shiftRight_add, Nat.shiftRight_eq_div_pow]
  have h1 : v.val % 2 ^ 64 / 2 ^ (48 + off) = v.val / 2 ^ (48 + off) % 2 ^ (64 - (48 + off)) := by
    rw [show (64 : Nat) = (48 + off) + (64 - (48 + off)) by omega, Nat.pow_add,
      Nat.mod_mul_right_div_self]
    congr 2; omega
  rw [h1]
  exact Nat.mod_mod_of_dvd _ (Nat.pow_dvd_pow _ (by omega))

theorem dstField (v : FE) : flagField 0x0001 0 v = bits v.val 48 1 :=
  flagField_eq _ _ 1 v (by decide) (by decide)
theorem op0Field (v : FE) : flagField 0x0002 1 v = bits v.val 49 1 :=
  flagField_eq _ _ 1 v (by decide) (by decide)
theorem op1Field (v : FE) : flagField 0x001C 2 v = bits v.val 50 3 :=
  flagField_eq _ _ 3 v (by decide) (by decide)
theorem resField (v : FE) : flagField 0x0060 5 v = bits v.val 53 2 :=
  flagField_eq _ _ 2 v (by decide) (by decide)
theorem pcField (v : FE) : flagField 0x0380 7 v = bits v.val 55 3 :=
  flagField_eq _ _ 3 v (by decide) (by decide)
theorem apField (v : FE) : flagField 0x0C00 10 v = bits v.val 58 2 :=
  flagField_eq _ _ 2 v (by decide) (by decide)
theorem opcodeField (v : FE) : flagField 0x7000 12 v = bits v.val 60 3 :=
  flagField_eq _ _ 3 v (by decide) (by decide)

theorem bits_lt (w pos len : Nat) : bits w pos len < 2 ^ len :=
  Nat.mod_lt _ (by positivity)

theorem dst_decode_ok (v : FE) (r : DstReg) :
    DstReg.decode v = .ok r ↔ r.code = bits v.val 48 1 := by
  unfold DstReg.decode; rw [dstField]
  have := bits_lt v.val 48 1
  generalize bits v.val 48 1 = n at *
  interval_cases n <;> cases r <;> simp [DstReg.code]

theorem op0_decode_ok (v : FE) (r : Op0Reg) :
    Op0Reg.decode v = .ok r ↔ r.code = bits v.val 49 1 := by
  unfold Op0Reg.decode; rw [op0Field]
  have := bits_lt v.val 49 1
  generalize bits v.val 49 1 = n at *
  interval_cases n <;> cases r <;> simp [Op0Reg.code]

theorem op1_decode_ok (v : FE) (r : Op1Src) :
    Op1Src.decode v = .ok r ↔ r.code = bits v.val 50 3 := by
  unfold Op1Src.decode; rw [op1Field]
  have := bits_lt v.val 50 3
  generalize bits v.val 50 3 = n at *
  interval_cases n <;> cases r <;> simp [Op1Src.code]

theorem res_decode_ok (v : FE) (r : ResLogic) :
    ResLogic.decode v = .ok r ↔ r.code = bits v.val 53 2 := by
  unfold ResLogic.decode; rw [resField]
  have := bits_lt v.val 53 2
  generalize bits v.val 53 2 = n at *
  interval_cases n <;> cases r <;> simp [ResLogic.code]

theorem pc_decode_ok (v : FE) (r : PcUpdate) :
    PcUpdate.decode v = .ok r ↔ r.code = bits v.val 55 3 := by
  unfold PcUpdate.decode; rw [pcField]
  have := bits_lt v.val 55 3
  generalize bits v.val 55 3 = n at *
  interval_cases n <;> cases r <;> simp [PcUpdate.code]

theorem ap_decode_ok (v : FE) (r : ApUpdate) :
    ApUpdate.decode v = .ok r ↔ r.code = bits v.val 58 2 := by
  unfold ApUpdate.decode; rw [apField]
  have := bits_lt v.val 58 2
  generalize bits v.val 58 2 = n at *
  interval_cases n <;> cases r <;> simp [ApUpdate.code]

theorem opcode_decode_ok (v : FE) (r : CairoOpcode) :
    CairoOpcode.decode v = .ok r ↔ r.code = bits v.val 60 3 := by
  unfold CairoOpcode.decode; rw [opcodeField]
  have := bits_lt v.val 60 3
  generalize bits v.val 60 3 = n at *
  interval_cases n <;> cases r <;> simp [CairoOpcode.code]

theorem flags_decode_ok (v : FE) (f : CairoInstructionFlags) :
    CairoInstructionFlags.decode v = .ok f ↔
      f.dstReg.code = bits v.val 48 1 ∧ f.op0Reg.code = bits v.val 49 1 ∧
      f.op1Src.code = bits v.val 50 3 ∧ f.resLogic.code = bits v.val 53 2 ∧
      f.pcUpdate.code = bits v.val 55 3 ∧ f.apUpdate.code = bits v.val 58 2 ∧
      f.opcode.code = bits v.val 60 3 := by
  simp only [CairoInstructionFlags.decode, Outcome.bind_eq_ok, Outcome.pure_eq, Outcome.ok.injEq,
    dst_decode_ok, op0_decode_ok, op1_decode_ok, res_decode_ok, pc_decode_ok, ap_decode_ok,
    opcode_decode_ok]
  constructor
  · rintro ⟨a, ha, b, hb, c, hc, d, hd, e, he, g, hg, h, hh, rfl⟩
    exact ⟨hh, hg, he, hd, hb, hc, ha⟩
  · rintro ⟨h1, h2, h3, h4, h5, h6, h7⟩
    exact ⟨_, h7, _, h5, _, h6, _, h4, _, h3, _, h2, _, h1, rfl⟩

theorem decode_ne_panic (v : FE) : CairoInstructionFlags.decode v ≠ .panic := by
  intro h
  simp only [CairoInstructionFlags.decode, Outcome.bind_eq_panic, Outcome.pure_eq] at h
  rcases h with h | ⟨_, _, h | ⟨_, _, h | ⟨_, _, h | ⟨_, _, h | ⟨_, _, h | ⟨_, _, h | ⟨_, _, h⟩⟩⟩⟩⟩⟩⟩
  · unfold CairoOpcode.decode at h; split at h <;> cases h
  · unfold PcUpdate.decode at h; split at h <;> cases h
  · unfold ApUpdate.decode at h; split at h <;> cases h
  · unfold ResLogic.decode at h; split at h <;> cases h
  · unfold Op1Src.decode at h; split at h <;> cases h
  · unfold Op0Reg.decode at h; dsimp only at h; split_ifs at h
  · unfold DstReg.decode at h; dsimp only at h; split_ifs at h
  · cases h

theorem field16 (v : FE) (k : Nat) (hk : k + 16 ≤ 64) :
    (lastNim v >>> k) &&& 0xFFFF = bits v.val k 16 := by
  unfold bits
  rw [lastNim_eq, show (0xFFFF : Nat) = 2 ^ 16 - 1 by norm_num, Nat.and_two_pow_sub_one_eq_mod,
    Nat.shiftRight_eq_div_pow]
  have h1 : v.val % 2 ^ 64 / 2 ^ k = v.val / 2 ^ k % 2 ^ (64 - k) := by
    conv_lhs => rw [show (64 : Nat) = k + (64 - k) by omega, Nat.pow_add, Nat.mod_mul_right_div_self]
  rw [h1]
  exact Nat.mod_mod_of_dvd _ (Nat.pow_dvd_pow _ (by omega))

theorem decodeOffset_eq (v : FE) (k : Nat) (hk : k + 16 ≤ 64) :
    decodeOffset v k = (bits v.val k 16 : Int) - 2 ^ 15 := by
  unfold decodeOffset i16OfBytes
  rw [field16 v k hk]
  have := bits_lt v.val k 16
  generalize bits v.val k 16 = n at *
  have h16 : (2 : Nat) ^ 16 = 65536 := by norm_num
  have h15 : (2 : Nat) ^ 15 = 32768 := by norm_num
  have i16 : (2 : Int) ^ 16 = 65536 := by norm_num
  have i15 : (2 : Int) ^ 15 = 32768 := by norm_num
  rw [h16] at this
  simp only [h15, i16, i15]
  split_ifs <;> omega

theorem toUnbiased_eq (n : Nat) (hn : n < 2 ^ 16) : toUnbiased ((n : Int) - 2 ^ 15) = (n : FE) := by
  unfold toUnbiased
  split
  next h => congr 1; norm_num at *; omega
  next h => congr 1; norm_num at *; omega

end Verif

namespace Verif
open Spec

theorem testBit_bits (w pos len i : Nat) (h : i < len) :
    (bits w pos len).testBit i = w.testBit (pos + i) := by
  unfold bits
  rw [Nat.testBit_mod_two_pow, Nat.testBit_div_two_pow, Nat.add_comm]
  simp [h]

/-- The flag cells of a decoded word are its bits. -/
theorem flags_toTrace (v : FE) (f : CairoInstructionFlags)
    (h : CairoInstructionFlags.decode v = .ok f) :
    f.toTrace = .ok ((List.range 15).map (flagBit v.val) ++ [0]) := by
  obtain ⟨h1, h2, h3, h4, h5, h6, h7⟩ := (flags_decode_ok v f).1 h
  have e0 : flagBit v.val 0 = if f.dstReg.code.testBit 0 then 1 else 0 := by
    rw [h1, testBit_bits _ _ _ _ (by decide)]; rfl
  have e1 : flagBit v.val 1 = if f.op0Reg.code.testBit 0 then 1 else 0 := by
    rw [h2, testBit_bits _ _ _ _ (by decide)]; rfl
  have e2 : flagBit v.val 2 = if f.op1Src.code.testBit 0 then 1 else 0 := by
    rw [h3, testBit_bits _ _ _ _ (by decide)]; rfl
  have e3 : flagBit v.val 3 = if f.op1Src.code.testBit 1 then 1 else 0 := by
    rw [h3, testBit_bits _ _ _ _ (by decide)]; rfl
  have e4 : flagBit v.val 4 = if f.op1Src.code.testBit 2 then 1 else 0 := by
    rw [h3, testBit_bits _ _ _ _ (by decide)]; rfl
  have e5 : flagBit v.val 5 = if f.resLogic.code.testBit 0 then 1 else 0 := by
    rw [h4, testBit_bits _ _ _ _ (by decide)]; rfl
  have e6 : flagBit v.val 6 = if f.resLogic.code.testBit 1 then 1 else 0 := by
    rw [h4, testBit_bits _ _ _ _ (by decide)]; rfl
  have e7 : flagBit v.val 7 = if f.pcUpdate.code.testBit 0 then 1 else 0 := by
    rw [h5, testBit_bits _ _ _ _ (by decide)]; rfl
  have e8 : flagBit v.val 8 = if f.pcUpdate.code.testBit 1 then 1 else 0 := by
    rw [h5, testBit_bits _ _ _ _ (by decide)]; rfl
  have e9 : flagBit v.val 9 = if f.pcUpdate.code.testBit 2 then 1 else 0 := by
    rw [h5, testBit_bits _ _ _ _ (by decide)]; rfl
  have e10 : flagBit v.val 10 = if f.apUpdate.code.testBit 0 then 1 else 0 := by
    rw [h6, testBit_bits _ _ _ _ (by decide)]; rfl
  have e11 : flagBit v.val 11 = if f.apUpdate.code.testBit 1 then 1 else 0 := by
    rw [h6, testBit_bits _ _ _ _ (by decide)]; rfl
  have e12 : flagBit v.val 12 = if f.opcode.code.testBit 0 then 1 else 0 := by
    rw [h7, testBit_bits _ _ _ _ (by decide)]; rfl
  have e13 : flagBit v.val 13 = if f.opcode.code.testBit 1 then 1 else 0 := by
    rw [h7, testBit_bits _ _ _ _ (by decide)]; rfl
  have e14 : flagBit v.val 14 = if f.opcode.code.testBit 2 then 1 else 0 := by
    rw [h7, testBit_bits _ _ _ _ (by decide)]; rfl
  have hr : f.resLogic ≠ .unconstrained := by
    intro hr; rw [hr] at h4
    have := bits_lt v.val 53 2; rw [← h4] at this; revert this; decide
  have ha : f.apUpdate ≠ .add2 := by
    intro hr; rw [hr] at h6
    have := bits_lt v.val 58 2; rw [← h6] at this; revert this; decide
  simp only [List.range_succ, List.range_zero, List.nil_append, List.map_append, List.map_cons,
    List.map_nil, List.cons_append, e0, e1, e2, e3, e4, e5, e6, e7, e8, e9, e10, e11, e12, e13, e14,
    CairoInstructionFlags.toTrace]
  clear e0 e1 e2 e3 e4 e5 e6 e7 e8 e9 e10 e11 e12 e13 e14 h1 h2 h3 h4 h5 h6 h7 h
  obtain ⟨oc, ap, pc, rl, o1, o0, d⟩ := f
  simp only at hr ha ⊢
  have t : ∀ {α β : Type} (x : α) (g : α → Outcome InstructionDecodingError β),
      (Outcome.ok x >>= g) = g x := fun _ _ => rfl
  have hrl : rl.toTrace = .ok (if rl.code.testBit 1 then 1 else 0, if rl.code.testBit 0 then 1 else 0) := by
    cases rl <;> first | exact absurd rfl hr | rfl
  have hap : ap.toTrace = .ok (if ap.code.testBit 1 then 1 else 0, if ap.code.testBit 0 then 1 else 0) := by
    cases ap <;> first | exact absurd rfl ha | rfl
  have ho1 : o1.toTrace = (if o1.code.testBit 2 then 1 else 0, if o1.code.testBit 1 then 1 else 0, if o1.code.testBit 0 then 1 else 0) := by
    cases o1 <;> rfl
  have hpc : pc.toTrace = (if pc.code.testBit 2 then 1 else 0, if pc.code.testBit 1 then 1 else 0, if pc.code.testBit 0 then 1 else 0) := by
    cases pc <;> rfl
  have hoc : oc.toTrace = (if oc.code.testBit 2 then 1 else 0, if oc.code.testBit 1 then 1 else 0, if oc.code.testBit 0 then 1 else 0) := by
    cases oc <;> rfl
  have hd : d.toTrace = (if d.code.testBit 0 then 1 else 0) := by cases d <;> rfl
  have ho0 : o0.toTrace = (if o0.code.testBit 0 then 1 else 0) := by cases o0 <;> rfl
  rw [hrl, hap, ho1, hpc, hoc, hd, ho0]
  rfl

/-- A number below `2^n` is the sum of its bits. -/
theorem sum_bits (n w : Nat) :
    ((List.range n).map fun i => 2 ^ i * (if w.testBit i then 1 else 0)).sum = w % 2 ^ n := by
  induction n with
  | zero => simp [Nat.mod_one]
  | succ n ih =>
    rw [List.range_succ, List.map_append, List.sum_append, ih, Nat.mod_pow_succ]
    simp only [List.map_cons, List.map_nil, List.sum_cons, List.sum_nil, add_zero]
    rw [Nat.testBit_eq_decide_div_mod_eq]
    rcases Nat.mod_two_eq_zero_or_one (w / 2 ^ n) with h | h <;> simp [h]

theorem sum_flagBits (w : Nat) :
    ((List.range 15).map fun i => (2 : FE) ^ i * flagBit w i).sum
      = ((w / 2 ^ 48 % 2 ^ 15 : Nat) : FE) := by
  rw [← sum_bits 15 (w / 2 ^ 48)]
  rw [Nat.cast_list_sum, List.map_map]
  congr 1
  apply List.map_congr_left
  intro i _
  simp only [Function.comp, flagBit]
  have h : (w / 2 ^ 48).testBit i = w.testBit (48 + i) := by
    rw [Nat.testBit_div_two_pow, Nat.add_comm i 48]
  cases hb : w.testBit (48 + i) <;> rw [hb] at h <;> simp only [h] <;> push_cast <;> simp

theorem P_gt : 2 ^ 251 < P := by unfold P; norm_num

theorem natCast_inj_of_lt {a b : Nat} (ha : a < P) (hb : b < P) : ((a : FE) = (b : FE)) ↔ a = b := by
  constructor
  · intro h
    have := congrArg ZMod.val h
    rwa [ZMod.val_natCast_of_lt ha, ZMod.val_natCast_of_lt hb] at this
  · rintro rfl; rfl

/-- The four parts of a word add up to its low 63 bits. -/
theorem word_parts (w : Nat) :
    w % 2 ^ 16 + 2 ^ 16 * (w / 2 ^ 16 % 2 ^ 16) + 2 ^ 32 * (w / 2 ^ 32 % 2 ^ 16)
      + 2 ^ 48 * (w / 2 ^ 48 % 2 ^ 15) = w % 2 ^ 63 := by
  norm_num; omega

end Verif
