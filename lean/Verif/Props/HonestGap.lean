import Verif.Lemmas.HonestGap
import Verif.Props.HonestTrace

/-!
# Honest Cairo traces, whatever the output segment: C24
-/

namespace Verif.Props
open Verif.ExecTrace Verif.CairoAir Verif.Spec

/-- **C24**: exactly which honest runs pass trace validation. For every run of the Cairo machine with no memory segments
or with a range-check segment with values below `2^128`, the prover builds the main trace, and for all challenges that
do not hit a denominator the auxiliary trace. Whenever it builds the auxiliary trace, the result passes validation if
and only if every address below a used one is touched by the run, public or filled up by the prover (`NoGap`), and what
is filled up at a public address is its value. -/
theorem C24_exact {mem : CairoMemory} {m : FE → FE} {states : List RegistersState}
    (run : HonestRun mem m states) {size : Nat} {segs : MemorySegmentMap} {pi : PublicInputs}
    (hpi : fromRegsAndMem states mem size segs = .ok pi) (hsize : size < 2 ^ 64)
    (hzero : mem.get? 0 = none) (hpc : ∃ t ∈ states, t.pc ≤ size)
    (hsegs : segs = [] ∨ ∃ r, segs.get? .rangeCheck = some r) (hb : BuiltinValues mem segs)
    (hout : OutputAfterProgram size segs) :
    ∃ main pi', buildMainTrace states mem pi = .ok (main, pi') ∧
      (∀ ch : RAPChallenges FE,
        (∀ e ∈ accesses main ++ pi.publicMemory, ch.zMemory ≠ e.1 + ch.alphaMemory * e.2) →
        (∀ x ∈ getCols main [OFF_DST, OFF_OP0, OFF_OP1], ch.zRangeCheck ≠ x) →
        ∃ aux, buildAuxiliaryTrace pi' main ch = .ok aux) ∧
      ∀ (opts : ProofOptions) (ch : RAPChallenges FE) (aux : List (List FE)),
        buildAuxiliaryTrace pi' main ch = .ok aux →
        (validateTable (CairoAir.air main.length pi' opts)
          (TraceTable.ofRows (List.zipWith (· ++ ·) main aux) (traceColumns (hasRcBuiltin pi')))
          ch = .ok true ↔
        NoGap m states size segs ∧
          ∀ e ∈ accesses main, ∀ n, IsPublic size segs n → e.1 = (n : FE) → e.2 = m (n : FE)) := by
  obtain ⟨-, -, -, -, -, -, -, -, hns, hms⟩ := fromRegsAndMem_regs hpi
  obtain ⟨main, pi', hmain⟩ := main_exists run (pi := pi) (by rw [hms]; exact hb)
  refine ⟨main, pi', hmain, ?_⟩
  obtain ⟨exec, rcHoles, lo, hi, holes, last1, last2, k, M⟩ := buildMainTrace_ok hmain
  obtain ⟨-, -, hset, h16, -⟩ := main_rows run (by rw [hms]; exact hb) M
  have hpipm : pi'.publicMemory = pi.publicMemory := by rw [M.pi_eq]
  have hpims : pi'.memorySegments = pi.memorySegments := by rw [M.pi_eq]
  have hlen : main.length = _ := congrArg List.length M.rows_eq
  rw [List.length_append, List.length_replicate] at hlen
  have hk := M.k_ge
  refine ⟨fun ch hmem hrc => aux_exists hpi hsize hout hpipm hpims (rows := main) (by omega)
    (fun x hx => lt_of_le_of_lt ((hset x).1 hx).2 h16) ch hmem hrc, fun opts ch aux haux => ?_⟩
  have hw : mainWidth pi = 43 - builtinOffset (hasRcBuiltin pi') := by
    unfold mainWidth hasRcBuiltin
    rw [hpims, hms]
    rcases hsegs with rfl | ⟨r, hr⟩
    · rfl
    · rw [hr]
      have hne : segs.isEmpty = false := by
        cases segs with
        | nil => cases hr
        | cons a t => rfl
      rw [hne]; rfl
  obtain ⟨-, hpairs, -, -⟩ := C22_sorted_columns hpi hsize hout hpipm hpims haux
  obtain ⟨addrs, vals, pcol, rcol, sorted, A⟩ := buildAuxiliaryTrace_ok haux
  obtain ⟨hsortd, hperm⟩ := hpairs sorted (aux_pairs A).symm
  have hauxlen : aux.length = main.length := A.len
  have hfull : (List.zipWith (· ++ ·) main aux).length = main.length := by simp; omega
  obtain ⟨-, -, -, hwid⟩ := M.width
  rw [hw] at hwid
  have hcols : 43 - builtinOffset (hasRcBuiltin pi') + 18 = traceColumns (hasRcBuiltin pi') := by
    cases hasRcBuiltin pi' <;> decide
  have hrect : ∀ r ∈ List.zipWith (· ++ ·) main aux, r.length = traceColumns (hasRcBuiltin pi') := by
    intro r hr
    obtain ⟨i, h, rfl⟩ := List.mem_iff_getElem.1 hr
    rw [List.getElem_zipWith, List.length_append, hwid _ (List.getElem_mem _),
      A.width _ (List.getElem_mem _), hcols]
  have hsteps : pi'.numSteps ≤ main.length := by
    have : pi'.numSteps = states.length := by rw [M.pi_eq]; exact hns
    rw [this, hlen]
    have := (exec_width M.exec_eq).1
    simp only [List.length_append]; omega
  have hvalid := C35_validate_table (CairoAir.air main.length pi' opts) (List.zipWith (· ++ ·) main aux)
    (traceColumns (hasRcBuiltin pi')) hrect ch (by rw [hfull]; exact CairoAir.declared _ _ _ _ (by omega) hsteps)
  rw [hvalid]
  obtain ⟨hpubval, hpubin, hpublen⟩ := public_entries run hpi hsize hout hzero
  obtain ⟨hdrop, hholes, hall⟩ := main_entries run M
  obtain ⟨hent, h00, hacc, hhole, hsub⟩ := hall _ rfl
  set all := (accesses main).take (4 * main.length - pi.publicMemory.length) ++ pi.publicMemory with hallDef
  have hpuball : ∀ e ∈ pi.publicMemory, e ∈ all := fun e he => List.mem_append_right _ he
  have hpubcast : ∀ n, IsPublic size segs n → 1 ≤ n ∧ n < 2 ^ 64 ∧ ((n : FE)).val = n := by
    intro n hn
    have h : 1 ≤ n ∧ n < 2 ^ 64 := by
      rcases hn with h | ⟨s, e, h, h1, h2⟩
      · omega
      · have := hout s e h; omega
    exact ⟨h.1, h.2, ZMod.val_natCast_of_lt (u64_lt_P h.2)⟩
  constructor
  · intro hsat
    have hA : Accepted pi' opts (List.zipWith (· ++ ·) main aux) ch :=
      ⟨hrect, by rw [hfull]; exact hsteps, by rw [hfull]; exact hsat⟩
    have hsorted : ∀ k < 4 * main.length,
        sortedAccess (hasRcBuiltin pi') (List.zipWith (· ++ ·) main aux) k = sorted.getD k (0, 0) := by
      intro k hk
      obtain ⟨-, ha, hv, -, -⟩ := A.cells hwid (i := k / 4) (by omega)
      have ha := ha (k % 4) (by omega)
      have hv := hv (k % 4) (by omega)
      rw [show 4 * (k / 4) + k % 4 = k by omega] at ha hv
      simp only [sortedAccess, cell_full A.len (show k / 4 < main.length by omega), ha, hv]
    obtain ⟨hfun, hgap⟩ := memory_of_steps sorted all hsortd hperm (by
      intro k hk
      rw [A.sorted_len] at hk
      have := sorted_step hA k (by rw [hfull]; exact hk)
      rwa [hsorted k (by omega), hsorted (k + 1) hk] at this)
    constructor
    · intro n hn hbeyond
      obtain ⟨p, hp, hpn⟩ := hgap n ⟨_, h00, by simpa using hn⟩ (by
        rcases hbeyond with ⟨x, hx, h⟩ | ⟨b, hb', h⟩
        · exact ⟨_, hacc x hx, h⟩
        · exact ⟨_, hpuball _ (hpubin b hb'), by rw [(hpubcast b hb').2.2]; exact h⟩)
      have hpn' : p.1 = (n : FE) := by rw [← hpn, ZMod.natCast_zmod_val]
      rcases hent p hp with rfl | ⟨h, -⟩ | ⟨i, hi, rfl⟩ | h
      · simp at hpn; omega
      · exact .inl (hpn' ▸ h)
      · have hmem : holes.getD i 0 ∈ holes := by
          rw [List.getD_eq_getElem _ _ hi]; exact List.getElem_mem _
        obtain ⟨h1, -, -, b, h2, h3⟩ := (hholes _).1 hmem
        simp only at hpn
        rw [hpn] at h1 h3
        exact .inr (.inr ⟨by omega, b, h2, h3⟩)
      · obtain ⟨n', h1, h2, -, h3, -⟩ := hpubval p h
        have : n = n' := by
          rw [← hpn, h1]
          exact (hpubcast n' h2).2.2
        exact .inr (.inl (this ▸ h2))
    · intro e he n hn hen
      exact hfun e (hsub e he) _ (hpuball _ (hpubin n hn)) hen
  · rintro ⟨hgap, hval⟩
    obtain ⟨hdrop, hmemory⟩ := main_memory_of run M hpi hsize hout hzero hpc hgap hval
    have := (honest_satisfies_of run M hpi hsize hb hout hdrop hmemory hw opts haux).2
    rwa [hfull] at this

/-- The memory of `simple_program` when its frame begins at address 20, which it writes. -/
def gapMem : CairoMemory :=
  [(1, 0x480680017fff8000), (2, 3), (3, 0x400680017fff7fff), (4, 3), (5, 0x208b7fff7fff7ffe),
   (18, 9), (19, 9), (20, 3)]

/-- The same memory as a total function. -/
def gapM (x : FE) : FE := (gapMem.get? x.val).getD 0

/-- The register trace. -/
def gapStates : List RegistersState :=
  [{ pc := 1, ap := 20, fp := 20 }, { pc := 3, ap := 21, fp := 20 }, { pc := 5, ap := 21, fp := 20 }]

/-- The segments: no range-check values, and the cell the program writes is its output. -/
def gapSegs : MemorySegmentMap := [(.rangeCheck, (21, 21)), (.output, (20, 21))]

theorem gap_run : HonestRun gapMem gapM gapStates := by
  have hstep : ∀ t ∈ gapStates, Registers64 t ∧
      AccessesRecorded gapMem gapM (regsOf t) ∧ Op0IsAddress gapM (regsOf t) := by
    have hrec : ∀ (n : Nat), (gapMem.get? n).isSome → Recorded gapMem (n : FE) := by
      intro n h
      obtain ⟨v, hv⟩ := Option.isSome_iff_exists.1 h
      exact ⟨n, v, hv, rfl⟩
    have hacc : ∀ (s : Regs) (a b c d : Nat), s.pc = (a : FE) →
        (operandsAt gapM s).dstAddr = (b : FE) → (operandsAt gapM s).op0Addr = (c : FE) →
        (operandsAt gapM s).op1Addr = (d : FE) →
        (gapMem.get? a).isSome → (gapMem.get? b).isSome → (gapMem.get? c).isSome →
        (gapMem.get? d).isSome → AccessesRecorded gapMem gapM s := by
      intro s a b c d h1 h2 h3 h4 i1 i2 i3 i4
      unfold AccessesRecorded
      rw [h1, h2, h3, h4]
      exact ⟨hrec a i1, hrec b i2, hrec c i3, hrec d i4⟩
    simp only [gapStates, List.mem_cons, List.not_mem_nil, or_false, forall_eq_or_imp,
      forall_eq]
    refine ⟨⟨by unfold Registers64; decide, ?_, by unfold Op0IsAddress; decide +kernel⟩,
      ⟨by unfold Registers64; decide, ?_, by unfold Op0IsAddress; decide +kernel⟩,
      ⟨by unfold Registers64; decide, ?_, by unfold Op0IsAddress; decide +kernel⟩⟩
    · exact hacc _ 1 20 19 2 (by decide +kernel) (by decide +kernel) (by decide +kernel)
        (by decide +kernel) (by decide +kernel) (by decide +kernel) (by decide +kernel)
        (by decide +kernel)
    · exact hacc _ 3 20 19 4 (by decide +kernel) (by decide +kernel) (by decide +kernel)
        (by decide +kernel) (by decide +kernel) (by decide +kernel) (by decide +kernel)
        (by decide +kernel)
    · exact hacc _ 5 18 19 19 (by decide +kernel) (by decide +kernel) (by decide +kernel)
        (by decide +kernel) (by decide +kernel) (by decide +kernel) (by decide +kernel)
        (by decide +kernel)
  have s1 : Step gapM (regsOf ⟨1, 20, 20⟩) (regsOf ⟨3, 20, 21⟩) := by
    refine ⟨by unfold LegalWord; decide +kernel, ?_, ?_, ?_, ?_⟩
    · unfold assertionsHold; decide +kernel
    all_goals decide +kernel
  have s2 : Step gapM (regsOf ⟨3, 20, 21⟩) (regsOf ⟨5, 20, 21⟩) := by
    refine ⟨by unfold LegalWord; decide +kernel, ?_, ?_, ?_, ?_⟩
    · unfold assertionsHold; decide +kernel
    all_goals decide +kernel
  have s3 : Step gapM (regsOf ⟨5, 20, 21⟩) ⟨9, 21, 9⟩ := by
    refine ⟨by unfold LegalWord; decide +kernel, ?_, ?_, ?_, ?_⟩
    · unfold assertionsHold; decide +kernel
    all_goals decide +kernel
  have hholds : Holds gapMem gapM := by
    intro a v h
    have hm := HMap.mem_of_get?_eq_some h
    have ha : a < 21 := by
      simp only [gapMem, List.mem_cons, Prod.mk.injEq, List.not_mem_nil, or_false] at hm
      omega
    refine ⟨by omega, ?_⟩
    have hval : ((a : FE)).val = a := ZMod.val_cast_of_lt (lt_trans ha (by decide))
    unfold gapM
    rw [hval, h]; rfl
  refine ⟨hholds, by decide, fun t ht => (hstep t ht).1, fun t ht => (hstep t ht).2.1,
    fun t ht => (hstep t ht).2.2, ?_, ?_⟩
  · intro i t t' h1 h2
    obtain _ | _ | _ | i := i
    · cases h1; cases h2; exact s1
    · cases h1; cases h2; exact s2
    · cases h2
    · cases h2
  · intro t ht
    cases ht
    exact ⟨_, s3⟩

theorem gap_accessed (x : FE) : Accessed gapM gapStates x ↔ x ∈ ([1, 3, 5, 20, 18, 19, 2, 4] : List FE) := by
  have h : ∀ t ∈ gapStates, ∀ x : FE, (x = (regsOf t).pc ∨ x = (operandsAt gapM (regsOf t)).dstAddr ∨
      x = (operandsAt gapM (regsOf t)).op0Addr ∨ x = (operandsAt gapM (regsOf t)).op1Addr) ↔
      x ∈ [(regsOf t).pc, (operandsAt gapM (regsOf t)).dstAddr, (operandsAt gapM (regsOf t)).op0Addr,
        (operandsAt gapM (regsOf t)).op1Addr] := by
    intro t _ x
    simp
  constructor
  · rintro ⟨t, ht, hx⟩
    rw [h t ht] at hx
    have : (gapStates.flatMap fun t => [(regsOf t).pc, (operandsAt gapM (regsOf t)).dstAddr,
        (operandsAt gapM (regsOf t)).op0Addr, (operandsAt gapM (regsOf t)).op1Addr]).all
        (fun x => x ∈ ([1, 3, 5, 20, 18, 19, 2, 4] : List FE)) = true := by decide +kernel
    simpa using List.all_eq_true.1 this x (List.mem_flatMap.2 ⟨t, ht, hx⟩)
  · intro hx
    have : ([1, 3, 5, 20, 18, 19, 2, 4] : List FE).all (fun x => x ∈ (gapStates.flatMap fun t =>
        [(regsOf t).pc, (operandsAt gapM (regsOf t)).dstAddr,
        (operandsAt gapM (regsOf t)).op0Addr, (operandsAt gapM (regsOf t)).op1Addr])) = true := by decide +kernel
    simpa [Accessed] using List.all_eq_true.1 this x hx

theorem gap_here : ¬ NoGap gapM gapStates 5 gapSegs := by
  intro hgap
  have h20 : Accessed gapM gapStates (20 : FE) := (gap_accessed _).2 (by decide +kernel)
  rcases hgap 6 (by norm_num) (.inl ⟨20, h20, by decide +kernel⟩) with h | h | ⟨h, -⟩
  · rw [gap_accessed] at h
    exact absurd h (by decide +kernel)
  · rcases h with ⟨-, h⟩ | ⟨s, e, hs, h3, h4⟩
    · omega
    · cases hs; omega
  · exact absurd h (by decide)

/-- **C24** fails for honest runs with both segments: `simple_program`, in a frame that begins at address 20, with the
cell it writes for its output. Its five words and the output are six public cells, so the prover does not fill up
address 6, and for no challenges does its trace pass validation. -/
theorem C24_fails_output_gap :
    ∃ (mem : CairoMemory) (m : FE → FE) (states : List RegistersState) (size : Nat)
      (segs : MemorySegmentMap) (pi : PublicInputs) (main : List (List FE)) (pi' : PublicInputs),
      HonestRun mem m states ∧ mem.get? 0 = none ∧ OutputAfterProgram size segs ∧ BuiltinValues mem segs ∧
      (∀ n, IsPublic size segs n → Accessed m states (n : FE)) ∧
      fromRegsAndMem states mem size segs = .ok pi ∧ buildMainTrace states mem pi = .ok (main, pi') ∧
      ∀ (opts : ProofOptions) (ch : RAPChallenges FE),
        (∀ e ∈ accesses main ++ pi.publicMemory, ch.zMemory ≠ e.1 + ch.alphaMemory * e.2) →
        (∀ x ∈ getCols main [OFF_DST, OFF_OP0, OFF_OP1], ch.zRangeCheck ≠ x) →
        ∃ aux, buildAuxiliaryTrace pi' main ch = .ok aux ∧
          validateTable (CairoAir.air main.length pi' opts)
            (TraceTable.ofRows (List.zipWith (· ++ ·) main aux) (traceColumns (hasRcBuiltin pi')))
            ch ≠ .ok true := by
  obtain ⟨pi, hpi⟩ : ∃ pi, fromRegsAndMem gapStates gapMem 5 gapSegs = .ok pi :=
    ⟨_, Outcome.eq_ok_getD Examples.pi0 (by decide +kernel)⟩
  have hzero : gapMem.get? 0 = none := by decide +kernel
  have hout : OutputAfterProgram 5 gapSegs := by intro s e h; cases h; decide
  have hb : BuiltinValues gapMem gapSegs := by intro s e h; cases h; intro n h1 h2; omega
  obtain ⟨main, pi', hmain, hex, h⟩ := C24_exact gap_run hpi (by norm_num) hzero ⟨⟨1, 20, 20⟩, by decide, by decide⟩
    (.inr ⟨_, rfl⟩) hb hout
  refine ⟨gapMem, gapM, gapStates, 5, gapSegs, pi, main, pi', gap_run, hzero, hout, hb, ?_, hpi, hmain, ?_⟩
  · rintro n (⟨h1, h2⟩ | ⟨s, e, hs, h1, h2⟩)
    · rw [gap_accessed]
      interval_cases n <;> decide +kernel
    · cases hs
      obtain rfl : n = 20 := by omega
      rw [gap_accessed]
      decide +kernel
  · intro opts ch h1 h2
    obtain ⟨aux, haux⟩ := hex ch h1 h2
    refine ⟨aux, haux, fun hv => ?_⟩
    exact gap_here ((h opts ch aux haux).1 hv).1

/-- The same program with its frame at address 8 and its result for the output: the run touches all addresses up to 8,
so nothing is left out. -/
theorem example_covered : OutputCovered Examples.m Examples.states 5 [(.output, (8, 9))] := by
  have hmem : ∀ x : FE, x ∈ ([1, 2, 3, 4, 5, 6, 7, 8] : List FE) → Accessed Examples.m Examples.states x := by
    intro x hx
    have : ([1, 2, 3, 4, 5, 6, 7, 8] : List FE).all (fun x => x ∈ (Examples.states.flatMap fun t =>
        [(regsOf t).pc, (operandsAt Examples.m (regsOf t)).dstAddr,
        (operandsAt Examples.m (regsOf t)).op0Addr, (operandsAt Examples.m (regsOf t)).op1Addr])) = true := by
      decide +kernel
    simpa [Accessed] using List.all_eq_true.1 this x hx
  have hmem' : ∀ x : FE, Accessed Examples.m Examples.states x → x.val ≤ 8 := by
    rintro x ⟨t, ht, hx⟩
    have : (Examples.states.flatMap fun t => [(regsOf t).pc, (operandsAt Examples.m (regsOf t)).dstAddr,
        (operandsAt Examples.m (regsOf t)).op0Addr, (operandsAt Examples.m (regsOf t)).op1Addr]).all
        (fun x => x.val ≤ 8) = true := by decide +kernel
    have h := List.all_eq_true.1 this x (List.mem_flatMap.2 ⟨t, ht, by simpa using hx⟩)
    simpa using h
  have hpub : ∀ n, IsPublic 5 [(.output, (8, 9))] n → 0 < n ∧ n ≤ 8 := by
    rintro n (⟨h1, h2⟩ | ⟨s, e, hs, h1, h2⟩)
    · omega
    · cases hs; omega
  have hacc : ∀ n : Nat, 0 < n → n ≤ 8 → Accessed Examples.m Examples.states (n : FE) := by
    intro n h1 h2
    refine hmem _ ?_
    interval_cases n <;> decide +kernel
  constructor
  · rintro n hn (⟨x, hx, hlt⟩ | ⟨b, hb, hlt⟩)
    · exact .inl (hacc n hn (by have := hmem' x hx; omega))
    · exact .inl (hacc n hn (by have := hpub b hb; omega))
  · intro n hn _
    exact hacc n (hpub n hn).1 (hpub n hn).2

/-- The conditions depend on the output segment only. -/
theorem outputCovered_congr {m : FE → FE} {states : List RegistersState} {size : Nat} {segs segs' : MemorySegmentMap}
    (h : segs.get? .output = segs'.get? .output) (hc : OutputCovered m states size segs) :
    OutputCovered m states size segs' := by
  have h1 : IsPublic size segs' = IsPublic size segs := by unfold IsPublic; rw [h]
  have h2 : FilledUp m states size segs' = FilledUp m states size segs := by
    unfold FilledUp outputCells; rw [h]
  have h3 : UsedBeyond m states size segs' = UsedBeyond m states size segs := by unfold UsedBeyond; rw [h1]
  exact ⟨by unfold NoGap; rw [h1, h2, h3]; exact hc.noGap, by rw [h1, h2]; exact hc.touched⟩

/-- Its trace passes validation when there is a range-check segment too. -/
example : let segs : MemorySegmentMap := [(.rangeCheck, (9, 9)), (.output, (8, 9))]
    ∃ pi main pi', fromRegsAndMem Examples.states Examples.mem 5 segs = .ok pi ∧
      buildMainTrace Examples.states Examples.mem pi = .ok (main, pi') ∧
      ∀ (opts : ProofOptions) (ch : RAPChallenges FE),
        (∀ e ∈ accesses main ++ pi.publicMemory, ch.zMemory ≠ e.1 + ch.alphaMemory * e.2) →
        (∀ x ∈ getCols main [OFF_DST, OFF_OP0, OFF_OP1], ch.zRangeCheck ≠ x) →
        ∃ aux, buildAuxiliaryTrace pi' main ch = .ok aux ∧ validateTable (CairoAir.air main.length pi' opts)
          (TraceTable.ofRows (List.zipWith (· ++ ·) main aux) (traceColumns (hasRcBuiltin pi'))) ch = .ok true := by
  intro segs
  obtain ⟨pi, hpi⟩ : ∃ pi, fromRegsAndMem Examples.states Examples.mem 5 segs = .ok pi :=
    ⟨_, Outcome.eq_ok_getD Examples.pi0 (by decide +kernel)⟩
  have hout : OutputAfterProgram 5 segs := by intro s e h; cases h; decide
  have hb : BuiltinValues Examples.mem segs := by intro s e h; cases h; intro n h1 h2; omega
  obtain ⟨main, pi', hmain, h⟩ := C24_honest_trace_partial example_run hpi (by norm_num) (by decide +kernel)
    ⟨⟨1, 8, 8⟩, by decide, by decide⟩ (.inr ⟨_, rfl⟩) hb hout (outputCovered_congr (by decide) example_covered)
  exact ⟨pi, main, pi', hpi, hmain, h⟩

end Verif.Props
