import Verif.Model.ExecutionTrace
import Verif.Lemmas.StepComplete
import Verif.Props.Decode
import Verif.Spec.Run

/-! Helper lemmas about the rows of the execution trace. -/

namespace Verif.ExecTrace
open CairoAir Spec

theorem unwrapErr_eq_ok {ε ε' α : Type} {x : Outcome ε α} {a : α} :
    (x.unwrapErr : Outcome ε' α) = .ok a ↔ x = .ok a := by
  cases x <;> simp [Outcome.unwrapErr]

theorem memGet_eq_ok {mem : CairoMemory} {a : Nat} {v : FE} :
    memGet mem a = .ok v ↔ mem.get? a = some v := by
  unfold memGet Outcome.ofOptionUnwrap
  cases mem.get? a <;> simp

theorem access_ok {mem : CairoMemory} {m : FE → FE} (hm : Holds mem m) {base : Nat} {off : Int}
    {a v : FE} (h : access mem base off = .ok (a, v)) : a = (base : FE) + (off : FE) ∧ m a = v := by
  simp only [access, Outcome.bind_eq_ok, memGet_eq_ok, Outcome.pure_eq, Outcome.ok.injEq,
    Prod.mk.injEq] at h
  obtain ⟨n, hn, v', hv, rfl, rfl⟩ := h
  unfold checkedAddSigned at hn
  split at hn
  · injection hn with hn
    rename_i hr
    constructor
    · have : (n : Int) = (base : Int) + off := by omega
      have := congrArg (Int.cast : Int → FE) this
      push_cast at this
      exact this
    · exact (hm _ _ hv).2
  · cases hn

theorem lastNim_of_lt {x : FE} (h : x.val < 2 ^ 64) : (lastNim x : FE) = x := by
  rw [lastNim_eq, Nat.mod_eq_of_lt h, ZMod.natCast_zmod_val]

theorem u64_lt_P {n : Nat} (h : n < 2 ^ 64) : n < P := lt_trans h (lt_trans (by norm_num) P_gt)

theorem groupsLegal_of_decode {v : FE} {f : CairoInstructionFlags}
    (h : CairoInstructionFlags.decode v = .ok f) : (Instr.ofWord v.val).GroupsLegal := by
  obtain ⟨-, -, h3, h4, h5, h6, h7⟩ := (flags_decode_ok v f).1 h
  have h53 := bits_lt v.val 53 2
  have h58 := bits_lt v.val 58 2
  simp only [Instr.GroupsLegal, Instr.ofWord]
  rw [← h3, ← h4, ← h5, ← h6, ← h7]
  rw [← h4] at h53
  rw [← h6] at h58
  refine ⟨?_, ?_, ?_, ?_, ?_⟩
  · cases f.op1Src <;> simp [Op1Src.code]
  · revert h53; cases f.resLogic <;> simp [ResLogic.code]
  · cases f.pcUpdate <;> simp [PcUpdate.code]
  · revert h58; cases f.apUpdate <;> simp [ApUpdate.code]
  · cases f.opcode <;> simp [CairoOpcode.code]

theorem offsets_new (v : FE) : InstructionOffsets.new v =
    ⟨(Instr.ofWord v.val).offDst, (Instr.ofWord v.val).offOp0, (Instr.ofWord v.val).offOp1⟩ := by
  simp only [InstructionOffsets.new, decodeOffset_eq v 0 (by decide),
    decodeOffset_eq v 16 (by decide), decodeOffset_eq v 32 (by decide), Instr.ofWord]

theorem offsets_toTrace (v : FE) : (InstructionOffsets.new v).toTrace =
    [(bits v.val 0 16 : FE), (bits v.val 16 16 : FE), (bits v.val 32 16 : FE)] := by
  simp only [InstructionOffsets.new, InstructionOffsets.toTrace,
    decodeOffset_eq v 0 (by decide), decodeOffset_eq v 16 (by decide),
    decodeOffset_eq v 32 (by decide)]
  rw [toUnbiased_eq _ (bits_lt _ _ _), toUnbiased_eq _ (bits_lt _ _ _),
    toUnbiased_eq _ (bits_lt _ _ _)]

/-- The 33 cells the specification prescribes for a step. -/
def specCells (m : FE → FE) (s : Regs) (res : FE) : List FE :=
  let o := operandsAt m s
  let w := (m s.pc).val
  (List.range 15).map (flagBit w) ++ [0] ++
    [res, s.ap, s.fp, s.pc, o.dstAddr, o.op0Addr, o.op1Addr, m s.pc, o.dst, o.op0, o.op1] ++
    [(bits w 0 16 : FE), (bits w 16 16 : FE), (bits w 32 16 : FE)] ++
    [flagBit w 9 * o.dst, flagBit w 9 * o.dst * res, o.op0 * o.op1]

theorem stepCells_ok {mem : CairoMemory} {m : FE → FE} (hm : Holds mem m) {t : RegistersState}
    {cells : List FE} (h : stepCells mem t = .ok cells)
    (haddr : Op0IsAddress m (regsOf t))
    (hassert : assertionsHold (instrAt m (regsOf t)) (regsOf t) (operandsAt m (regsOf t))) :
    (instrAt m (regsOf t)).GroupsLegal ∧
    ∃ res, cells = specCells m (regsOf t) res ∧
      ((instrAt m (regsOf t)).pcUpdate ≠ 4 →
        res = result (instrAt m (regsOf t)) (operandsAt m (regsOf t))) ∧
      ((instrAt m (regsOf t)).pcUpdate = 4 → res = (operandsAt m (regsOf t)).dst⁻¹ ∧
        (instrAt m (regsOf t)).resLogic = 0 ∧ (instrAt m (regsOf t)).opcode = 0 ∧
        (instrAt m (regsOf t)).apUpdate ≠ 1) := by
  unfold stepCells at h
  simp only [Outcome.bind_eq_ok, unwrapErr_eq_ok, memGet_eq_ok, Outcome.pure_eq,
    Outcome.ok.injEq, Prod.exists, instructionFlagsAndOffsets, Prod.mk.injEq] at h
  obtain ⟨f0, o, ⟨word, hword, f, hdec, rfl, rfl⟩, dstAddr, dst0, hdst, op0Addr, op00, hop0,
    op1Addr, op1, hop1, res0, hres, op0, dst, res, hupd, flags, hflags, inst, hinst, rfl⟩ := h
  have hword' : mem.get? t.pc = some word := by
    unfold Outcome.okOr at hword
    cases hg : mem.get? t.pc <;> rw [hg] at hword <;> simp at hword
    rw [hword]
  have hinst' : inst = word := by rw [hword'] at hinst; exact (Option.some.inj hinst).symm
  subst hinst'
  have hmpc : m (regsOf t).pc = inst := (hm _ _ hword').2
  have hI : instrAt m (regsOf t) = Instr.ofWord inst.val := by unfold instrAt; rw [hmpc]
  have hO : operandsAt m (regsOf t) = operands m (Instr.ofWord inst.val) (regsOf t) := by
    unfold operandsAt; rw [hI]
  unfold Op0IsAddress at haddr
  rw [hI] at haddr hassert ⊢
  have hlegal := groupsLegal_of_decode hdec
  rw [flags_toTrace _ _ hdec] at hflags
  injection hflags with hflags
  obtain ⟨d1, d2, d3, d4, d5, d6, d7⟩ := (flags_decode_ok inst f).1 hdec
  have i1 : (Instr.ofWord inst.val).dstReg = f.dstReg.code := d1.symm
  have i2 : (Instr.ofWord inst.val).op0Reg = f.op0Reg.code := d2.symm
  have i3 : (Instr.ofWord inst.val).op1Src = f.op1Src.code := d3.symm
  have i4 : (Instr.ofWord inst.val).resLogic = f.resLogic.code := d4.symm
  have i5 : (Instr.ofWord inst.val).pcUpdate = f.pcUpdate.code := d5.symm
  have i6 : (Instr.ofWord inst.val).apUpdate = f.apUpdate.code := d6.symm
  have i7 : (Instr.ofWord inst.val).opcode = f.opcode.code := d7.symm
  clear d1 d2 d3 d4 d5 d6 d7
  rw [offsets_new] at hdst hop0 hop1
  rw [offsets_toTrace]
  generalize hIW : Instr.ofWord inst.val = I at *
  set s := regsOf t with hs
  -- operand addresses and values
  have edst : dstAddr = (operands m I s).dstAddr ∧ m dstAddr = dst0 := by
    unfold computeDst at hdst
    simp only [operands, i1]
    cases hr : f.dstReg <;> rw [hr] at hdst <;> simp only [DstReg.code] <;>
      obtain ⟨h1, h2⟩ := access_ok hm hdst <;> exact ⟨by rw [h1]; rfl, h2⟩
  have eop0 : op0Addr = (operands m I s).op0Addr ∧ m op0Addr = op00 := by
    unfold computeOp0 at hop0
    simp only [operands, i2]
    cases hr : f.op0Reg <;> rw [hr] at hop0 <;> simp only [Op0Reg.code] <;>
      obtain ⟨h1, h2⟩ := access_ok hm hop0 <;> exact ⟨by rw [h1]; rfl, h2⟩
  have eop0' : op00 = (operands m I s).op0 := by
    rw [← eop0.2, eop0.1]; rfl
  have eop1 : op1Addr = (operands m I s).op1Addr ∧ m op1Addr = op1 := by
    have hspec : (operands m I s).op1Addr = op1Base I s op00 + (I.offOp1 : FE) := by
      rw [eop0']; rfl
    rw [hspec]
    unfold computeOp1 at hop1
    simp only [op1Base, i3]
    cases hr : f.op1Src
    case op0 =>
      rw [hr] at hop1
      obtain ⟨h1, h2⟩ := access_ok hm hop1
      refine ⟨?_, h2⟩
      have hlow : op00.val < 2 ^ 64 := by
        rw [eop0', ← hO]; apply haddr; rw [i3, hr]; rfl
      rw [h1, lastNim_of_lt hlow]; rfl
    all_goals
      rw [hr] at hop1
      obtain ⟨h1, h2⟩ := access_ok hm hop1
      exact ⟨by rw [h1]; rfl, h2⟩
  have edst' : dst0 = (operands m I s).dst := by rw [← edst.2, edst.1]; rfl
  have eop1' : op1 = (operands m I s).op1 := by rw [← eop1.2, eop1.1]; rfl
  rw [hO] at hassert haddr ⊢
  -- the result
  have eres : (I.pcUpdate ≠ 4 → res0 = result I (operands m I s)) ∧
      (I.pcUpdate = 4 → res0 = dst0⁻¹ ∧ I.resLogic = 0 ∧ I.opcode = 0 ∧ I.apUpdate ≠ 1) := by
    unfold computeRes at hres
    rw [i4, i5, i6, i7]
    simp only [result, i4]
    rw [← eop0', ← eop1']
    cases hp : f.pcUpdate <;> rw [hp] at hres <;> simp only [PcUpdate.code] <;>
      simp only at hres <;> refine ⟨fun hne => ?_, fun heq => ?_⟩
    all_goals first
      | (exact absurd rfl hne)
      | (exfalso; revert heq; decide)
      | skip
    case jnz.refine_2 =>
      revert hres
      cases f.resLogic <;> cases f.opcode <;> cases f.apUpdate <;> simp only [] <;>
        intro hres <;> first | cases hres | skip
      all_goals
        refine ⟨?_, rfl, rfl, by decide⟩
        split at hres
        next hz => injection hres with hres; rw [← hres, hz, inv_zero]
        next hz => injection hres with hres; exact hres.symm
    all_goals
      revert hres
      cases f.resLogic <;> simp only [ResLogic.code] <;> intro hres <;>
        first | cases hres | skip
      all_goals rfl
  -- updated values
  have ecall : op0 = (operands m I s).op0 ∧ dst = (operands m I s).dst ∧
      (f.opcode ≠ .assertEq → res = res0) ∧ (f.opcode = .assertEq → res = dst0) := by
    unfold updateValues at hupd
    cases hc : f.opcode <;> rw [hc] at hupd
    case call =>
      dsimp only at hupd
      by_cases hov : t.pc + (if f.op1Src = .imm then 2 else 1) < 2 ^ 64
      · rw [if_pos hov] at hupd
        simp only [Outcome.ok.injEq, Prod.mk.injEq] at hupd
        obtain ⟨rfl, rfl, rfl⟩ := hupd
        obtain ⟨a1, a2⟩ := hassert.1 (by rw [i7, hc]; rfl)
        refine ⟨?_, a2.symm, fun _ => rfl, fun h => (by cases h)⟩
        rw [a1]
        simp only [instrSize, i3]
        have : s.pc = (t.pc : FE) := rfl
        rw [this]
        push_cast
        cases f.op1Src <;> simp [Op1Src.code]
      · rw [if_neg hov] at hupd; cases hupd
    all_goals
      simp only [Outcome.ok.injEq, Prod.mk.injEq] at hupd
      obtain ⟨rfl, rfl, rfl⟩ := hupd
      refine ⟨eop0', edst', ?_, ?_⟩ <;> simp
  obtain ⟨e1, e2, e3, e4⟩ := ecall
  refine ⟨hlegal, res, ?_, ?_, ?_⟩
  · simp only [specCells]
    rw [hO, hmpc, ← hflags, edst.1, eop0.1, eop1.1, e1, e2, eop1']
    simp [hs, regsOf]
  · intro hne
    by_cases ha : f.opcode = .assertEq
    · rw [e4 ha, edst']
      exact hassert.2 (by rw [i7, ha]; rfl)
    · rw [e3 ha]; exact eres.1 hne
  · intro heq
    obtain ⟨r1, r2, r3, r4⟩ := eres.2 heq
    have ha : f.opcode ≠ .assertEq := by
      intro ha; rw [i7, ha] at r3; cases r3
    exact ⟨by rw [e3 ha, r1, edst'], r2, r3, r4⟩

theorem stepCells_regs {mem : CairoMemory} {t : RegistersState} {cells : List FE}
    (h : stepCells mem t = .ok cells) :
    cells.length = 33 ∧ cells[17]? = some (t.ap : FE) ∧ cells[18]? = some (t.fp : FE) ∧
      cells[19]? = some (t.pc : FE) := by
  unfold stepCells at h
  simp only [Outcome.bind_eq_ok, unwrapErr_eq_ok, memGet_eq_ok, Outcome.pure_eq,
    Outcome.ok.injEq, Prod.exists, instructionFlagsAndOffsets, Prod.mk.injEq] at h
  obtain ⟨f0, o, ⟨word, hword, f, hdec, rfl, rfl⟩, dstAddr, dst0, hdst, op0Addr, op00, hop0,
    op1Addr, op1, hop1, res0, hres, op0, dst, res, hupd, flags, hflags, inst, hinst, rfl⟩ := h
  rw [flags_toTrace _ _ hdec] at hflags
  injection hflags with hflags
  rw [offsets_toTrace]
  subst hflags
  simp [List.range_succ]

theorem access_exists {mem : CairoMemory} {m : FE → FE} (hm : Holds mem m) {base : Nat} {off : Int}
    (hb : base < 2 ^ 64) (ho : -(2 ^ 15) ≤ off ∧ off < 2 ^ 15) {x : FE}
    (hx : x = (base : FE) + (off : FE)) (hr : Recorded mem x) :
    access mem base off = .ok (x, m x) := by
  obtain ⟨n, v, hn, hnx⟩ := hr
  obtain ⟨hn64, hmv⟩ := hm _ _ hn
  have heq : ((n : Int) : FE) = (((base : Int) + off : Int) : FE) := by
    push_cast; rw [hnx, hx]
  have hint : (n : Int) = (base : Int) + off := by
    rw [ZMod.intCast_eq_intCast_iff_dvd_sub] at heq
    have hP : (2 : Int) ^ 65 < (P : Int) := by
      have := P_gt
      have h2 : (2 : Nat) ^ 65 < P := lt_trans (by norm_num) this
      exact_mod_cast h2
    by_contra hne
    have := Int.le_of_dvd (a := (P : Int)) (b := |(base : Int) + off - n|)
      (by rw [abs_pos]; omega) ((dvd_abs _ _).2 heq)
    have hlt : |(base : Int) + off - n| ≤ 2 ^ 65 := by
      rw [abs_le]
      have h1 : (base : Int) < 2 ^ 64 := by exact_mod_cast hb
      have h2 : (n : Int) < 2 ^ 64 := by exact_mod_cast hn64
      norm_num at *
      constructor <;> omega
    omega
  have hadd : checkedAddSigned base off = .ok n := by
    unfold checkedAddSigned
    have h2 : (n : Int) < 2 ^ 64 := by exact_mod_cast hn64
    rw [← hint, if_pos ⟨by omega, h2⟩, Int.toNat_natCast]
  unfold access
  rw [hadd, Outcome.bind_ok, memGet_eq_ok.2 hn, Outcome.bind_ok, Outcome.pure_eq]
  rw [← hnx, hmv]

theorem biased_bounds (w pos : Nat) :
    -(2 ^ 15 : Int) ≤ (bits w pos 16 : Int) - 2 ^ 15 ∧ (bits w pos 16 : Int) - 2 ^ 15 < 2 ^ 15 := by
  have := bits_lt w pos 16
  norm_num at *
  omega

theorem stepCells_exists {mem : CairoMemory} {m : FE → FE} (hm : Holds mem m) {t : RegistersState}
    (h64 : Registers64 t) (hlegal : LegalWord (m (regsOf t).pc))
    (hrec : AccessesRecorded mem m (regsOf t)) (haddr : Op0IsAddress m (regsOf t)) :
    ∃ cells, stepCells mem t = .ok cells := by
  obtain ⟨hpc64, hap64, hfp64⟩ := h64
  obtain ⟨hrpc, hrd, hr0, hr1⟩ := hrec
  obtain ⟨hw, hg, hc⟩ := hlegal
  obtain ⟨n, v, hn, hnx⟩ := hrpc
  have hnpc : n = t.pc := by
    have h1 := (hm _ _ hn).1
    exact (natCast_inj_of_lt (u64_lt_P h1) (u64_lt_P (by omega))).1 hnx
  subst hnpc
  have hmpc : m (regsOf t).pc = v := (hm _ _ hn).2
  have hI : instrAt m (regsOf t) = Instr.ofWord v.val := by unfold instrAt; rw [hmpc]
  rw [hmpc] at hw hg hc
  obtain ⟨f, hdec⟩ := (Props.C12_flags_decode v).2.1.2 hg
  obtain ⟨d1, d2, d3, d4, d5, d6, d7⟩ := (flags_decode_ok v f).1 hdec
  have i1 : (Instr.ofWord v.val).dstReg = f.dstReg.code := d1.symm
  have i2 : (Instr.ofWord v.val).op0Reg = f.op0Reg.code := d2.symm
  have i3 : (Instr.ofWord v.val).op1Src = f.op1Src.code := d3.symm
  have i4 : (Instr.ofWord v.val).resLogic = f.resLogic.code := d4.symm
  have i5 : (Instr.ofWord v.val).pcUpdate = f.pcUpdate.code := d5.symm
  have i6 : (Instr.ofWord v.val).apUpdate = f.apUpdate.code := d6.symm
  have i7 : (Instr.ofWord v.val).opcode = f.opcode.code := d7.symm
  clear d1 d2 d3 d4 d5 d6 d7
  have b0 := biased_bounds v.val 0
  have b1 := biased_bounds v.val 16
  have b2 := biased_bounds v.val 32
  have e0 : (Instr.ofWord v.val).offDst = (bits v.val 0 16 : Int) - 2 ^ 15 := rfl
  have e1 : (Instr.ofWord v.val).offOp0 = (bits v.val 16 16 : Int) - 2 ^ 15 := rfl
  have e2 : (Instr.ofWord v.val).offOp1 = (bits v.val 32 16 : Int) - 2 ^ 15 := rfl
  rw [← e0] at b0; rw [← e1] at b1; rw [← e2] at b2
  have hO : operandsAt m (regsOf t) = operands m (Instr.ofWord v.val) (regsOf t) := by
    unfold operandsAt; rw [hI]
  unfold Op0IsAddress at haddr
  rw [hI] at haddr
  have hflags := flags_toTrace _ _ hdec
  have hoff := offsets_new v
  generalize Instr.ofWord v.val = I at *
  set s := regsOf t with hs
  rw [hO] at hrd hr0 hr1 haddr
  have hdst : computeDst f (InstructionOffsets.new v) t mem =
      .ok ((operands m I s).dstAddr, (operands m I s).dst) := by
    rw [hoff]
    unfold computeDst
    cases hr : f.dstReg <;>
      exact access_exists hm (by assumption) b0 (by simp [operands, i1, hr, DstReg.code, hs, regsOf]) hrd
  have hop0 : computeOp0 f (InstructionOffsets.new v) t mem =
      .ok ((operands m I s).op0Addr, (operands m I s).op0) := by
    rw [hoff]
    unfold computeOp0
    cases hr : f.op0Reg <;>
      exact access_exists hm (by assumption) b1 (by simp [operands, i2, hr, Op0Reg.code, hs, regsOf]) hr0
  have hop1 : computeOp1 f (InstructionOffsets.new v) t mem (operands m I s).op0 =
      .ok ((operands m I s).op1Addr, (operands m I s).op1) := by
    rw [hoff]
    have hspec : (operands m I s).op1Addr =
      op1Base I s (operands m I s).op0 + (I.offOp1 : FE) := rfl
    unfold computeOp1
    cases hr : f.op1Src
    case op0 =>
      have hlow := haddr (by rw [i3, hr]; rfl)
      refine access_exists hm ?_ b2 ?_ hr1
      · rw [lastNim_eq]; exact Nat.mod_lt _ (by norm_num)
      · rw [hspec, lastNim_of_lt hlow]; simp [op1Base, i3, hr, Op1Src.code]
    all_goals
      exact access_exists hm (by omega) b2 (by rw [hspec]; simp [op1Base, i3, hr, Op1Src.code, hs, regsOf]) hr1
  have hres : ∃ r, computeRes f (operands m I s).op0 (operands m I s).op1 (operands m I s).dst
      = .ok r := by
    have hg2 := hg.2.1
    have hg4 := hg.2.2.2.1
    have hc1 := hc.1
    rw [i4] at hg2 hc1
    rw [i6] at hg4 hc1
    rw [i7, i5] at hc1
    unfold computeRes
    cases hp : f.pcUpdate
    case jnz =>
      rw [hp] at hc1
      revert hc1 hg4
      cases f.resLogic <;> cases f.opcode <;> cases f.apUpdate <;>
        simp [ResLogic.code, PcUpdate.code, CairoOpcode.code, ApUpdate.code] <;>
        (split <;> exact ⟨_, rfl⟩)
    all_goals
      revert hg2
      cases f.resLogic <;> simp [ResLogic.code]
  obtain ⟨r, hres⟩ := hres
  have hupd : ∃ x, updateValues f t (operands m I s).op0 (operands m I s).dst r = .ok x := by
    unfold updateValues
    cases hc : f.opcode <;> dsimp only
    case call =>
      rw [if_pos (by split <;> omega)]
      exact ⟨_, rfl⟩
    all_goals exact ⟨_, rfl⟩
  obtain ⟨x, hupd⟩ := hupd
  have hifo : instructionFlagsAndOffsets mem t = .ok (f, InstructionOffsets.new v) := by
    unfold instructionFlagsAndOffsets Outcome.okOr
    rw [hn]; simp [hdec]
  unfold stepCells
  simp only [hifo, hflags, Outcome.unwrapErr, Outcome.bind_ok, hdst, hop0, hop1, hres, hupd,
    memGet_eq_ok.2 hn, Outcome.pure_eq]
  exact ⟨_, rfl⟩

end Verif.ExecTrace
