import Verif.Spec.Layout
import Verif.Lemmas.MainTable

/-! When the rows of a run can be built. -/

namespace Verif.ExecTrace
open CairoAir Spec

theorem access_cell {mem : CairoMemory} {base : Nat} {off : Int} {v : FE} :
    (∃ a, access mem base off = .ok (a, v)) ↔ CellHolds mem base off v := by
  simp only [access, Outcome.bind_eq_ok, memGet_eq_ok, Outcome.pure_eq, Outcome.ok.injEq, Prod.mk.injEq,
    checkedAddSigned]
  constructor
  · rintro ⟨x, n, hn, v', hv, -, rfl⟩
    split at hn
    · injection hn with hn
      exact ⟨n, by omega, by omega, hv⟩
    · cases hn
  · rintro ⟨n, h1, h2, h3⟩
    exact ⟨n, n, by rw [if_pos (by omega)]; congr 1; omega, v, h3, rfl, rfl⟩

theorem unwrap_ok {α : Type} {o : Option α} {a : α} : (Outcome.ofOptionUnwrap o : Run α) = .ok a ↔ o = some a := by
  unfold Outcome.ofOptionUnwrap
  cases o <;> simp

theorem okOr_ok {ε α : Type} {o : Option α} {e : ε} {a : α} : (Outcome.okOr o e) = .ok a ↔ o = some a := by
  cases o <;> simp [Outcome.okOr]

theorem computeRes_ok {f : CairoInstructionFlags} {op0 op1 dst : FE} (hu : f.resLogic ≠ .unconstrained)
    (h2 : f.apUpdate ≠ .add2) :
    (∃ r, computeRes f op0 op1 dst = .ok r) ↔
      (f.pcUpdate.code = 4 → f.resLogic.code = 0 ∧ f.opcode.code = 0 ∧ f.apUpdate.code ≠ 1) := by
  unfold computeRes
  cases hp : f.pcUpdate <;> cases hr : f.resLogic <;> cases ho : f.opcode <;> cases ha : f.apUpdate <;>
    simp_all [PcUpdate.code, ResLogic.code, CairoOpcode.code, ApUpdate.code] <;>
    by_cases hd : dst = 0 <;> simp [hd]

theorem updateValues_ok {f : CairoInstructionFlags} {t : RegistersState} {op0 dst res : FE} :
    (∃ r, updateValues f t op0 dst res = .ok r) ↔
      (f.opcode.code = 1 → t.pc + (if f.op1Src.code = 1 then 2 else 1) < 2 ^ 64) := by
  have hs : (if f.op1Src = .imm then 2 else 1) = if f.op1Src.code = 1 then 2 else 1 := by
    cases f.op1Src <;> simp [Op1Src.code]
  unfold updateValues
  rw [hs]
  generalize (if f.op1Src.code = 1 then 2 else 1) = k
  cases f.opcode <;> simp [CairoOpcode.code]
  split <;> simp_all

theorem stepCells_iff {mem : CairoMemory} {t : RegistersState} :
    (∃ cells, stepCells mem t = .ok cells) ↔ StepLaidOut mem t := by
  have key : ∀ (w : FE) (f : CairoInstructionFlags), CairoInstructionFlags.decode w = .ok f →
      (Instr.ofWord w.val).dstReg = f.dstReg.code ∧ (Instr.ofWord w.val).op0Reg = f.op0Reg.code ∧
      (Instr.ofWord w.val).op1Src = f.op1Src.code ∧ (Instr.ofWord w.val).resLogic = f.resLogic.code ∧
      (Instr.ofWord w.val).pcUpdate = f.pcUpdate.code ∧ (Instr.ofWord w.val).apUpdate = f.apUpdate.code ∧
      (Instr.ofWord w.val).opcode = f.opcode.code ∧ f.resLogic ≠ .unconstrained ∧ f.apUpdate ≠ .add2 := by
    intro w f h
    obtain ⟨d1, d2, d3, d4, d5, d6, d7⟩ := (flags_decode_ok w f).1 h
    refine ⟨d1.symm, d2.symm, d3.symm, d4.symm, d5.symm, d6.symm, d7.symm, fun hu => ?_, fun hu => ?_⟩
    · have := bits_lt w.val 53 2
      rw [← d4, hu] at this
      simp [ResLogic.code] at this
    · have := bits_lt w.val 58 2
      rw [← d6, hu] at this
      simp [ApUpdate.code] at this
  have hdst : ∀ (f : CairoInstructionFlags) (o : InstructionOffsets) (v : FE),
      (∃ a, computeDst f o t mem = .ok (a, v)) ↔
        CellHolds mem (if f.dstReg.code = 0 then t.ap else t.fp) o.offDst v := by
    intro f o v
    unfold computeDst
    cases f.dstReg <;> simp only [DstReg.code] <;> exact access_cell
  have hop0 : ∀ (f : CairoInstructionFlags) (o : InstructionOffsets) (v : FE),
      (∃ a, computeOp0 f o t mem = .ok (a, v)) ↔
        CellHolds mem (if f.op0Reg.code = 0 then t.ap else t.fp) o.offOp0 v := by
    intro f o v
    unfold computeOp0
    cases f.op0Reg <;> simp only [Op0Reg.code] <;> exact access_cell
  have hop1 : ∀ (f : CairoInstructionFlags) (o : InstructionOffsets) (op0 v : FE),
      (∃ a, computeOp1 f o t mem op0 = .ok (a, v)) ↔
        CellHolds mem (if f.op1Src.code = 0 then op0.val % 2 ^ 64 else if f.op1Src.code = 1 then t.pc
          else if f.op1Src.code = 2 then t.fp else t.ap) o.offOp1 v := by
    intro f o op0 v
    unfold computeOp1
    rw [← lastNim_eq]
    cases f.op1Src <;> simp only [Op1Src.code] <;> exact access_cell
  constructor
  · rintro ⟨cells, h⟩
    unfold stepCells at h
    simp only [Outcome.bind_eq_ok, unwrapErr_eq_ok, memGet_eq_ok, Outcome.pure_eq, Outcome.ok.injEq, Prod.exists,
      instructionFlagsAndOffsets, Prod.mk.injEq, okOr_ok] at h
    obtain ⟨f0, o, ⟨w, hw, f, hdec, rfl, rfl⟩, dstAddr, dst0, h1, op0Addr, op00, h2, op1Addr, op1, h3, res0, hres,
      op0, dst, res, hupd, -⟩ := h
    obtain ⟨e1, e2, e3, e4, e5, e6, e7, hu, ha⟩ := key w f hdec
    have b1 := (hdst _ _ _).1 ⟨_, h1⟩
    have b2 := (hop0 _ _ _).1 ⟨_, h2⟩
    have b3 := (hop1 _ _ _ _).1 ⟨_, h3⟩
    rw [offsets_new] at b1 b2 b3
    refine ⟨w, hw, groupsLegal_of_decode hdec, ?_, ?_, ⟨dst0, ?_⟩, op00, ?_, op1, ?_⟩
    · rw [e4, e5, e6, e7]
      exact (computeRes_ok hu ha).1 ⟨_, hres⟩
    · rw [e3, e7]
      exact updateValues_ok.1 ⟨_, hupd⟩
    · rw [e1]; exact b1
    · rw [e2]; exact b2
    · rw [e3]; exact b3
  · rintro ⟨w, hw, hg, hc, hcall, ⟨dst0, b1⟩, op00, b2, op1, b3⟩
    obtain ⟨f, hdec⟩ := (Props.C12_flags_decode w).2.1.2 hg
    obtain ⟨e1, e2, e3, e4, e5, e6, e7, hu, ha⟩ := key w f hdec
    rw [e4, e5, e6, e7] at hc
    rw [e3, e7] at hcall
    rw [e1] at b1
    rw [e2] at b2
    rw [e3] at b3
    have hoff := offsets_new w
    obtain ⟨a1, h1⟩ := (hdst f (InstructionOffsets.new w) dst0).2 (by rw [hoff]; exact b1)
    obtain ⟨a2, h2⟩ := (hop0 f (InstructionOffsets.new w) op00).2 (by rw [hoff]; exact b2)
    obtain ⟨a3, h3⟩ := (hop1 f (InstructionOffsets.new w) op00 op1).2 (by rw [hoff]; exact b3)
    obtain ⟨r, hr⟩ := (computeRes_ok (op0 := op00) (op1 := op1) (dst := dst0) hu ha).2 hc
    obtain ⟨⟨x, y, z⟩, hx⟩ := (updateValues_ok (t := t) (op0 := op00) (dst := dst0) (res := r)).2 hcall
    have hflags := flags_toTrace _ _ hdec
    have hins : instructionFlagsAndOffsets mem t = .ok (f, InstructionOffsets.new w) := by
      simp [instructionFlagsAndOffsets, hw, Outcome.okOr, hdec]
    have hget : memGet mem t.pc = .ok w := memGet_eq_ok.2 hw
    unfold stepCells
    simp only [hins, Outcome.unwrapErr, Outcome.bind_ok, h1, h2, h3, hr, hx, hflags, hget]
    exact ⟨_, rfl⟩

theorem mapOutcome_all {α β : Type} {f : α → Run β} {l : List α} :
    (∃ bs, mapOutcome f l = .ok bs) ↔ ∀ a ∈ l, ∃ b, f a = .ok b := by
  refine ⟨?_, mapOutcome_exists⟩
  rintro ⟨bs, h⟩ a ha
  obtain ⟨i, hi, rfl⟩ := List.mem_iff_getElem.1 ha
  obtain ⟨h1, h2⟩ := mapOutcome_mem h
  exact ⟨_, h2 i hi (by omega)⟩

theorem exec_iff {states : List RegistersState} {mem : CairoMemory} {pi : PublicInputs} :
    (∃ exec, buildCairoExecutionTrace states mem pi = .ok exec) ↔ RunLaidOut states mem pi.memorySegments := by
  have hcells : (∃ cells, mapOutcome (stepCells mem) states = .ok cells) ↔ ∀ t ∈ states, StepLaidOut mem t := by
    rw [mapOutcome_all]
    simp only [stepCells_iff]
  have hvals : ∀ s e, (∃ vs, rcValues (s, e) mem = .ok vs) ↔ ∀ n, s ≤ n → n < e → ∃ v, mem.get? n = some v := by
    intro s e
    unfold rcValues
    rw [mapOutcome_all]
    simp only [List.mem_range'_1, memGet_eq_ok]
    constructor
    · intro h n h1 h2
      exact h n ⟨h1, by omega⟩
    · intro h n hn
      exact h n hn.1 (by omega)
  unfold buildCairoExecutionTrace RunLaidOut
  constructor
  · rintro ⟨exec, h⟩
    simp only [Outcome.bind_eq_ok] at h
    obtain ⟨cells, hc, h⟩ := h
    by_cases hn : states.length = 0
    · rw [if_pos hn] at h
      cases h
    · rw [if_neg hn] at h
      refine ⟨fun h0 => hn (by rw [h0]; rfl), hcells.1 ⟨_, hc⟩, fun s e hse => ?_⟩
      rw [hse] at h
      simp only [Outcome.bind_eq_ok] at h
      obtain ⟨vs, hv, -⟩ := h
      exact (hvals s e).1 ⟨_, hv⟩
  · rintro ⟨hne, hall, hrc⟩
    obtain ⟨cells, hc⟩ := hcells.2 hall
    have hn : states.length ≠ 0 := fun h => hne (List.length_eq_zero_iff.1 h)
    simp only [hc, Outcome.bind_ok, hn, if_false]
    cases hr : pi.memorySegments.get? .rangeCheck with
    | none => exact ⟨_, rfl⟩
    | some range =>
      obtain ⟨vs, hv⟩ := (hvals range.1 range.2).2 (hrc _ _ hr)
      simp only [hv, Outcome.bind_ok]
      exact ⟨_, rfl⟩

theorem getRcHoles_some {l : List FE} (h : l ≠ []) : ∃ r, getRcHoles l = .ok r := by
  unfold getRcHoles
  have hl : (sortNat (l.map fun x => x.val % 2 ^ 16)).length = l.length := by
    unfold sortNat
    rw [List.length_insertionSort, List.length_map]
  generalize sortNat (l.map fun x => x.val % 2 ^ 16) = sorted at hl
  cases sorted with
  | nil => exact absurd (List.length_eq_zero_iff.1 hl.symm) h
  | cons a t =>
    dsimp only
    rw [List.getLast?_eq_some_getLast (List.cons_ne_nil a t)]
    exact ⟨_, rfl⟩

theorem main_iff {states : List RegistersState} {mem : CairoMemory} {pi : PublicInputs} :
    (∃ r, buildMainTrace states mem pi = .ok r) ↔ RunLaidOut states mem pi.memorySegments := by
  rw [← exec_iff]
  constructor
  · rintro ⟨r, h⟩
    unfold buildMainTrace at h
    rw [Outcome.bind_eq_ok] at h
    obtain ⟨exec, h, -⟩ := h
    exact ⟨exec, h⟩
  · rintro ⟨exec, hexec⟩
    have hne := (exec_width hexec).2.1
    have hcol : ∀ cols : List Nat, cols ≠ [] → getCols exec cols ≠ [] := by
      intro cols hc h
      have := length_getCols exec cols
      rw [h] at this
      simp only [List.length_nil] at this
      rcases Nat.mul_eq_zero.1 this.symm with h | h
      · exact hc (List.length_eq_zero_iff.1 h)
      · exact hne (List.length_eq_zero_iff.1 h)
    obtain ⟨⟨rcHoles, lo, hi⟩, hrc⟩ := getRcHoles_some (hcol [OFF_DST, OFF_OP0, OFF_OP1] (by simp))
    unfold buildMainTrace
    simp only [hexec, Outcome.bind_ok, hrc]
    have hholes : ∃ holes, getMemoryHoles ((getCols exec ADDR_COLUMNS).insertionSort
        fun a b => a.val ≤ b.val) pi.publicMemory.length = .ok holes := by
      unfold getMemoryHoles
      cases hs : (getCols exec ADDR_COLUMNS).insertionSort fun a b => a.val ≤ b.val with
      | nil =>
        have h1 := (List.perm_insertionSort (fun a b : FE => a.val ≤ b.val) (getCols exec ADDR_COLUMNS)).length_eq
        rw [hs] at h1
        exact absurd (List.length_eq_zero_iff.1 h1.symm) (hcol _ (by simp [ADDR_COLUMNS]))
      | cons a t => exact ⟨_, rfl⟩
    obtain ⟨holes, hholes⟩ := hholes
    simp only [hholes, Outcome.bind_ok]
    obtain ⟨l1, hl1⟩ := lastRow_exists (l := exec ++ rcHoleRows (exec.head?.elim 0 List.length) rcHoles)
      (by simp [hne])
    simp only [hl1, Outcome.bind_ok]
    obtain ⟨l2, hl2⟩ := lastRow_exists (l := exec ++
      rcHoleRows (exec.head?.elim 0 List.length) rcHoles ++ memoryHoleRows l1 holes) (by simp [hne])
    simp only [hl2, Outcome.bind_ok]
    obtain ⟨l3, hl3⟩ := lastRow_exists (l := exec ++
      rcHoleRows (exec.head?.elim 0 List.length) rcHoles ++ memoryHoleRows l1 holes ++
      List.replicate (pi.publicMemory.length >>> 2 + 1) (zeroedRow l2 MEMORY_COLUMNS)) (by simp [hne])
    simp only [hl3, Outcome.bind_ok]
    exact ⟨_, rfl⟩

theorem batchInverse_iff {l : List FE} : (∃ r, batchInverse l = .ok r) ↔ ∀ x ∈ l, x ≠ 0 := by
  unfold batchInverse
  split
  · rename_i h
    simp only [reduceCtorEq, exists_false, false_iff]
    exact fun hn => hn 0 h rfl
  · rename_i h
    simp only [Outcome.ok.injEq, exists_eq', true_iff]
    exact fun x hx h0 => h (h0 ▸ hx)

theorem memoryPermutation_ok {original sorted : List (FE × FE)} {ch : RAPChallenges FE} :
    (∃ r, memoryPermutationColumn original sorted ch = .ok r) ↔
      ∀ e ∈ sorted, ch.zMemory ≠ e.1 + ch.alphaMemory * e.2 := by
  have : (∃ r, memoryPermutationColumn original sorted ch = .ok r) ↔
      ∃ r, batchInverse (sorted.map fun e => ch.zMemory - (e.1 + ch.alphaMemory * e.2)) = .ok r := by
    unfold memoryPermutationColumn
    cases batchInverse (sorted.map fun e => ch.zMemory - (e.1 + ch.alphaMemory * e.2)) <;> simp
  rw [this, batchInverse_iff]
  simp only [List.forall_mem_map, sub_ne_zero]

theorem rangeCheckPermutation_ok {original sorted : List FE} {ch : RAPChallenges FE} :
    (∃ r, rangeCheckPermutationColumn original sorted ch = .ok r) ↔ ∀ x ∈ sorted, ch.zRangeCheck ≠ x := by
  have : (∃ r, rangeCheckPermutationColumn original sorted ch = .ok r) ↔
      ∃ r, batchInverse (sorted.map fun x => ch.zRangeCheck - x) = .ok r := by
    unfold rangeCheckPermutationColumn
    cases batchInverse (sorted.map fun x => ch.zRangeCheck - x) <;> simp
  rw [this, batchInverse_iff]
  simp only [List.forall_mem_map, sub_ne_zero]

theorem getPubMemoryAddrs_ok {out : Option (Nat × Nat)} {len : Nat} {addrs : List FE} :
    getPubMemoryAddrs out len = .ok addrs ↔ (∀ s e, out = some (s, e) → s ≤ e ∧ e - s ≤ len) ∧
      addrs = (publicAddresses len out).map fun n : Nat => (n : FE) := by
  unfold getPubMemoryAddrs publicAddresses
  cases out with
  | none => simp [eq_comm]
  | some r =>
    obtain ⟨s, e⟩ := r
    simp only [Option.some.injEq, Prod.mk.injEq, List.map_append]
    constructor
    · intro h
      split at h
      · injection h with h
        exact ⟨by rintro _ _ ⟨rfl, rfl⟩; assumption, h.symm⟩
      · cases h
    · rintro ⟨h1, rfl⟩
      rw [if_pos (h1 s e ⟨rfl, rfl⟩)]

/-- The pairs that the public memory leaves and those it writes. -/
def publicPairs (pi : PublicInputs) (original : List (FE × FE)) : List (FE × FE) :=
  original.take (original.length - pi.publicMemory.length) ++
    (publicAddresses pi.publicMemory.length (pi.memorySegments.get? .output)).map
      fun n : Nat => ((n : FE), (pi.publicMemory.get? (n : FE)).getD 0)

theorem addPubMemory_ok {A V : List FE} (hlen : V.length = A.length) {pi : PublicInputs} {x : List FE × List FE} :
    addPubMemory A V pi = .ok x → pi.publicMemory.length ≤ A.length ∧
      (∀ s e, pi.memorySegments.get? .output = some (s, e) → s ≤ e ∧ e - s ≤ pi.publicMemory.length) ∧
      (∀ n ∈ publicAddresses pi.publicMemory.length (pi.memorySegments.get? .output),
        ∃ v, pi.publicMemory.get? (n : FE) = some v) ∧ x.1.zip x.2 = publicPairs pi (A.zip V) := by
  intro h
  unfold addPubMemory at h
  dsimp only at h
  split at h
  · cases h
  rename_i hl
  simp only [Outcome.bind_eq_ok, getPubMemoryAddrs_ok, Outcome.pure_eq, Outcome.ok.injEq] at h
  obtain ⟨addrs, ⟨hseg, rfl⟩, vals, hv, rfl⟩ := h
  have hall := mapOutcome_all.1 ⟨_, hv⟩
  have hcell : ∀ n ∈ publicAddresses pi.publicMemory.length (pi.memorySegments.get? .output),
      ∃ v, pi.publicMemory.get? (n : FE) = some v := by
    intro n hn
    obtain ⟨v, h⟩ := hall n (List.mem_map.2 ⟨n, hn, rfl⟩)
    exact ⟨v, unwrap_ok.1 h⟩
  refine ⟨by omega, hseg, hcell, ?_⟩
  have hvals := mapOutcome_ok (g := fun a : FE => (pi.publicMemory.get? a).getD 0)
    (f := fun a => (Outcome.ofOptionUnwrap (pi.publicMemory.get? a) : Run FE)) _ (fun a ha => by
      obtain ⟨n, hn, rfl⟩ := List.mem_map.1 ha
      obtain ⟨v, hv⟩ := hcell n hn
      rw [hv]
      rfl)
  rw [hv] at hvals
  injection hvals with hvals
  have htake : ∀ k, (A.zip V).take k = (A.take k).zip (V.take k) := fun k => List.take_zipWith
  unfold publicPairs
  rw [hvals, List.map_map, List.length_zip, hlen, Nat.min_self, htake,
    List.zip_append (by simp [hlen])]
  congr 1
  rw [List.zip_map']
  rfl

theorem addPubMemory_exists {A V : List FE} {pi : PublicInputs} (h1 : pi.publicMemory.length ≤ A.length)
    (h2 : ∀ s e, pi.memorySegments.get? .output = some (s, e) → s ≤ e ∧ e - s ≤ pi.publicMemory.length)
    (h3 : ∀ n ∈ publicAddresses pi.publicMemory.length (pi.memorySegments.get? .output),
      ∃ v, pi.publicMemory.get? (n : FE) = some v) : ∃ x, addPubMemory A V pi = .ok x := by
  obtain ⟨vals, hv⟩ := mapOutcome_exists
    (f := fun a => (Outcome.ofOptionUnwrap (pi.publicMemory.get? a) : Run FE))
    (l := (publicAddresses pi.publicMemory.length (pi.memorySegments.get? .output)).map fun n : Nat => (n : FE))
    (fun a ha => by
      obtain ⟨n, hn, rfl⟩ := List.mem_map.1 ha
      obtain ⟨v, hv⟩ := h3 n hn
      exact ⟨v, unwrap_ok.2 hv⟩)
  unfold addPubMemory
  dsimp only
  rw [if_neg (by omega), getPubMemoryAddrs_ok.2 ⟨h2, rfl⟩]
  simp only [Outcome.bind_ok, hv]
  exact ⟨_, rfl⟩

theorem aux_iff {pi : PublicInputs} {rows : List (List FE)} {ch : RAPChallenges FE} :
    (∃ aux, buildAuxiliaryTrace pi rows ch = .ok aux) ↔ AuxLaidOut pi rows ch := by
  have hA : (getCols rows ADDR_COLUMNS).length = 4 * rows.length := by rw [length_getCols]; rfl
  have hV : (getCols rows VALUE_COLUMNS).length = 4 * rows.length := by rw [length_getCols]; rfl
  have hoff : (∀ x ∈ (sortNat ((getCols rows [OFF_DST, OFF_OP0, OFF_OP1]).map fun x => x.val % 2 ^ 16)).map
      (fun n : Nat => (n : FE)), ch.zRangeCheck ≠ x) ↔
      ∀ r ∈ rows, ∀ k < 3, ch.zRangeCheck ≠ (((r.getD (27 + k) 0).val % 2 ^ 16 : Nat) : FE) := by
    unfold sortNat
    simp only [List.forall_mem_map, List.mem_insertionSort, mem_getCols]
    constructor
    · intro h r hr k hk
      refine h _ ⟨r, hr, 27 + k, ?_, rfl⟩
      interval_cases k <;> decide
    · rintro h _ ⟨r, hr, c, hc, rfl⟩
      simp only [List.mem_cons, List.not_mem_nil, or_false] at hc
      rcases hc with rfl | rfl | rfl
      exacts [h r hr 0 (by decide), h r hr 1 (by decide), h r hr 2 (by decide)]
  have hpairs : ∀ j < 4 * rows.length, ((getCols rows ADDR_COLUMNS).zip (getCols rows VALUE_COLUMNS))[j]? =
      some ((rows.getD (j / 4) []).getD (19 + j % 4) 0, (rows.getD (j / 4) []).getD (23 + j % 4) 0) := by
    intro j hj
    have e1 := getCols_getD rows ADDR_COLUMNS (j / 4) (j % 4) (by omega) (Nat.mod_lt _ (by decide))
    have e2 := getCols_getD rows VALUE_COLUMNS (j / 4) (j % 4) (by omega) (Nat.mod_lt _ (by decide))
    have hl1 : ADDR_COLUMNS.length = 4 := rfl
    have hl2 : VALUE_COLUMNS.length = 4 := rfl
    have hc1 : ∀ k < 4, ADDR_COLUMNS.getD k 0 = 19 + k := by decide
    have hc2 : ∀ k < 4, VALUE_COLUMNS.getD k 0 = 23 + k := by decide
    rw [hl1, Nat.div_add_mod, hc1 _ (Nat.mod_lt _ (by decide)), List.getD_eq_getElem _ _ (by omega)] at e1
    rw [hl2, Nat.div_add_mod, hc2 _ (Nat.mod_lt _ (by decide)), List.getD_eq_getElem _ _ (by omega)] at e2
    rw [List.getElem?_eq_getElem (by rw [List.length_zip]; omega), List.getElem_zip, e1, e2]
  have hmem : (∀ n ∈ publicAddresses pi.publicMemory.length (pi.memorySegments.get? .output),
        ∃ v, pi.publicMemory.get? (n : FE) = some v) →
      ((∀ e ∈ publicPairs pi ((getCols rows ADDR_COLUMNS).zip (getCols rows VALUE_COLUMNS)),
        ch.zMemory ≠ e.1 + ch.alphaMemory * e.2) ↔
      (∀ n ∈ publicAddresses pi.publicMemory.length (pi.memorySegments.get? .output),
        ∃ v, pi.publicMemory.get? (n : FE) = some v ∧ ch.zMemory ≠ n + ch.alphaMemory * v) ∧
      ∀ j < 4 * rows.length - pi.publicMemory.length, ch.zMemory ≠ (rows.getD (j / 4) []).getD (19 + j % 4) 0 +
        ch.alphaMemory * (rows.getD (j / 4) []).getD (23 + j % 4) 0) := by
    intro hcell
    unfold publicPairs
    rw [List.forall_mem_append, List.length_zip, hA, hV, Nat.min_self, and_comm, List.forall_mem_map]
    refine and_congr ⟨fun h n hn => ?_, fun h n hn => ?_⟩ ⟨fun h j hj => ?_, fun h e he => ?_⟩
    · obtain ⟨v, hv⟩ := hcell n hn
      have := h n hn
      rw [hv] at this
      exact ⟨v, hv, this⟩
    · obtain ⟨v, hv, h⟩ := h n hn
      rw [hv]
      exact h
    · have hp := hpairs j (by omega)
      exact h _ (List.mem_of_getElem? (i := j) (by rw [List.getElem?_take_of_lt hj]; exact hp))
    · obtain ⟨j, hj⟩ := List.mem_iff_getElem?.1 he
      rw [List.getElem?_take] at hj
      split at hj
      · rename_i hlt
        rw [hpairs j (by omega)] at hj
        injection hj with hj
        subst hj
        exact h j hlt
      · cases hj
  have hsorted : ∀ l : List (FE × FE), (∀ e ∈ sortByAddress l, ch.zMemory ≠ e.1 + ch.alphaMemory * e.2) ↔
      ∀ e ∈ l, ch.zMemory ≠ e.1 + ch.alphaMemory * e.2 := by
    intro l
    unfold sortByAddress
    simp only [List.mem_insertionSort]
  unfold buildAuxiliaryTrace
  dsimp only
  constructor
  · rintro ⟨aux, h⟩
    simp only [Outcome.bind_eq_ok, Prod.exists] at h
    obtain ⟨a, v, h1, perm, h2, rc, h3, -⟩ := h
    obtain ⟨g1, g2, g3, g4⟩ := addPubMemory_ok (by rw [hA, hV]) h1
    dsimp only at g4
    have m := memoryPermutation_ok.1 ⟨_, h2⟩
    rw [hsorted, g4] at m
    obtain ⟨m1, m2⟩ := (hmem g3).1 m
    exact ⟨by omega, g2, m1, m2, hoff.1 (rangeCheckPermutation_ok.1 ⟨_, h3⟩)⟩
  · rintro ⟨g1, g2, m1, m2, ho⟩
    have g3 : ∀ n ∈ publicAddresses pi.publicMemory.length (pi.memorySegments.get? .output),
        ∃ v, pi.publicMemory.get? (n : FE) = some v := fun n hn => (m1 n hn).imp fun v h => h.1
    obtain ⟨⟨a, v⟩, h1⟩ := addPubMemory_exists (A := getCols rows ADDR_COLUMNS) (V := getCols rows VALUE_COLUMNS)
      (by omega) g2 g3
    have g4 := (addPubMemory_ok (by rw [hA, hV]) h1).2.2.2
    dsimp only at g4
    obtain ⟨perm, h2⟩ := (memoryPermutation_ok (sorted := sortByAddress (a.zip v))
      (original := (getCols rows ADDR_COLUMNS).zip (getCols rows VALUE_COLUMNS)) (ch := ch)).2
      (by rw [hsorted, g4]; exact (hmem g3).2 ⟨m1, m2⟩)
    obtain ⟨rc, h3⟩ := (rangeCheckPermutation_ok (original := getCols rows [OFF_DST, OFF_OP0, OFF_OP1])).2 (hoff.2 ho)
    simp only [h1, Outcome.bind_ok, h2, h3]
    exact ⟨_, rfl⟩

end Verif.ExecTrace
