import Verif.Spec.Cli
import Verif.Spec.Commands
import Verif.Model.Cli
import Verif.Props.CairoHonest
import Verif.Props.CairoImport
import Verif.Props.Codec

/-!
# Lemmas about the runner and the command line
-/

namespace Verif
open Runner Spec ExecTrace CairoAir TraceTable

theorem isCasm_iff (path : String) : IsCasm path ↔ ".casm".toList <:+: path.toList := by
  constructor
  · rintro ⟨a, b, rfl⟩
    exact ⟨a.toList, b.toList, by simp only [String.toList_append]⟩
  · rintro ⟨a, b, h⟩
    refine ⟨String.ofList a, String.ofList b, ?_⟩
    rw [← String.toList_inj]
    simp only [String.toList_append, String.toList_ofList]
    exact h.symm

theorem layoutOf_for (v : CairoVersion) : LayoutFor v (layoutOf v) := by
  cases v
  · exact .v0
  · exact .v1

theorem layoutFor_eq {v : CairoVersion} {l : CairoLayout} (h : LayoutFor v l) : l = layoutOf v := by
  cases h <;> rfl

theorem runAs_version {path : String} {v : CairoVersion} {l : CairoLayout} (h : RunAs path v l) :
    v = Cli.versionOf path ∧ l = layoutOf (Cli.versionOf path) := by
  unfold Cli.versionOf
  cases h with
  | casm a hl => rw [if_pos ((isCasm_iff path).1 a)]; exact ⟨rfl, layoutFor_eq hl⟩
  | cairo0 a hl => rw [if_neg fun h => a ((isCasm_iff path).2 h)]; exact ⟨rfl, layoutFor_eq hl⟩

theorem foldl_sizes (f : Nat → Nat) (l : List Nat) (x : Nat) :
    l.foldl (fun acc i => acc + f i) x = x + (l.map f).sum := by
  induction l generalizing x with
  | nil => simp
  | cons a l ih => rw [List.foldl_cons, ih, List.map_cons, List.sum_cons, Nat.add_assoc]

theorem rangeCheckRange_spec (r : VmRun) : IsRangeCheckRange r (rangeCheckRange r) := by
  constructor
  · intro h; simp [rangeCheckRange, h]
  · intro idx stop h
    simp only [rangeCheckRange, h, Option.map_some, foldl_sizes]
    rfl

theorem runProgram_ok {vm : Vm} {layout : CairoLayout} {program : Bytes} {version : CairoVersion} {r : VmRun}
    (hvm : vm version layout program = .ok r) {states : List RegistersState} (h : MachineRun r states) :
    ∃ mem, runProgram vm layout program version = .ok (states, mem, r.dataLen, rangeCheckRange r) ∧
      MemoryOf r mem := by
  obtain ⟨mem, h1, h2⟩ := Props.C11_memory_import_inverts_writer r.relocatedMemory h.cells
  refine ⟨mem, ?_, h2⟩
  unfold runProgram
  rw [hvm, Outcome.bind_ok, h.trace]
  simp only [Outcome.okOr, Outcome.bind_ok, h1, Outcome.unwrapErr,
    Props.C10_trace_import_inverts_writer states h.regs, Outcome.pure_eq]

/-- A run is honest for every map with the same content. -/
theorem HonestRun.same {mem mem' : CairoMemory} {m : FE → FE} {states : List RegistersState}
    (h : HonestRun mem m states) (hs : ∀ a, mem'.get? a = mem.get? a) : HonestRun mem' m states := by
  refine ⟨fun a v hv => h.holds a v (by rw [← hs]; exact hv), h.nonempty, h.regs, fun t ht => ?_, h.addr,
    h.steps, h.last⟩
  have hr : ∀ x, Recorded mem x → Recorded mem' x := by
    rintro x ⟨n, v, hn, hx⟩
    exact ⟨n, v, by rw [hs]; exact hn, hx⟩
  obtain ⟨h1, h2, h3, h4⟩ := h.recorded t ht
  exact ⟨hr _ h1, hr _ h2, hr _ h3, hr _ h4⟩

/-- The segments of a run from the command line. -/
theorem segments_cli (rc : Option (Nat × Nat)) :
    (createMemorySegmentMap rc none).get? .output = none ∧
    (createMemorySegmentMap rc none).get? .rangeCheck = rc ∧
    (createMemorySegmentMap rc none = [] ∨ ∃ r, (createMemorySegmentMap rc none).get? .rangeCheck = some r) ∧
    (createMemorySegmentMap rc none).WF ∧
    ∀ e ∈ createMemorySegmentMap rc none, rc = some e.2 := by
  cases rc with
  | none => exact ⟨rfl, rfl, .inl rfl, List.nodup_nil, fun e he => by cases he⟩
  | some r =>
    refine ⟨rfl, rfl, .inr ⟨r, rfl⟩, by unfold HMap.WF; exact List.nodup_singleton _, fun e he => ?_⟩
    have : e = (.rangeCheck, r) := by simpa [createMemorySegmentMap, HMap.insert] using he
    rw [this]

/-- What `generate_prover_args` computes. -/
theorem generateProverArgs_ok {vm : Vm} {program : Bytes} {version : CairoVersion} {out : Option (Nat × Nat)}
    {tab : TraceTable FE} {pi : PublicInputs}
    (h : generateProverArgs vm program version out = .ok (tab, pi)) :
    ∃ states mem size rc pi0 main,
      runProgram vm (layoutOf version) program version = .ok (states, mem, size, rc) ∧
      fromRegsAndMem states mem size (createMemorySegmentMap rc out) = .ok pi0 ∧
      buildMainTrace states mem pi0 = .ok (main, pi) ∧
      tab = ⟨main.flatten, (main.headD []).length⟩ := by
  unfold generateProverArgs at h
  simp only [Outcome.bind_eq_ok, Prod.exists, Outcome.pure_eq, Outcome.ok.injEq, Prod.mk.injEq] at h
  obtain ⟨states, mem, size, rc, h1, pi0, h2, main, pi', h3, rfl, rfl⟩ := h
  refine ⟨states, mem, size, rc, pi0, main, h1, ?_, ?_, rfl⟩
  · generalize fromRegsAndMem states mem size (createMemorySegmentMap rc out) = x at h2 ⊢
    cases x <;> simp_all [Outcome.unwrapErr]
  · generalize buildMainTrace states mem pi0 = x at h3 ⊢
    cases x <;> simp_all [Outcome.unwrapErr]

theorem unwrapErr_ok {ε ε' α : Type} {x : Outcome ε α} {a : α} :
    (x.unwrapErr : Outcome ε' α) = .ok a ↔ x = .ok a := by
  cases x <;> simp [Outcome.unwrapErr]

theorem publicCells_nodup {mem : CairoMemory} {states : List RegistersState} {size : Nat}
    {segs : MemorySegmentMap} {pi : PublicInputs} (h : fromRegsAndMem states mem size segs = .ok pi) :
    pi.publicMemory.WF := by
  unfold fromRegsAndMem at h
  simp only [Outcome.bind_eq_ok, Outcome.pure_eq, Outcome.ok.injEq] at h
  obtain ⟨prog, -, out, -, last, -, first, -, rfl⟩ := h
  exact HMap.WF.foldl_insert _ _ List.nodup_nil

section
variable {T : Type} {env : Env FE T}

/-- The numbers in a proof of a Cairo trace fit in 64 bits, and every query of it has evaluations. -/
theorem cairo_proof_sized {mem : CairoMemory} {states : List RegistersState} {pi pi' : PublicInputs}
    {main : List (List FE)} (hmain : buildMainTrace states mem pi = .ok (main, pi'))
    {options : ProofOptions} {b : Nat} (hbl : options.blowupFactor.toNat = 2 ^ b) {proof : StarkProof FE}
    (hproof : generateCairoProof env ⟨main.flatten, (main.headD []).length⟩ pi' options = .ok proof) :
    Props.MachineSized proof ∧ (∀ q ∈ proof.queryList, q.layersEvaluations ≠ []) ∧
      main.length < 2 ^ 64 := by
  obtain ⟨⟨a, ha, hlen⟩, hw, hhd, -, -, -⟩ := Props.main_shape hmain
  have hk : 0 < mainWidth pi := by have := mainWidth_ge pi; omega
  rw [hhd] at hproof
  have hnew : CairoAir.new (ofRows main (mainWidth pi)).nRows pi' options = .ok (air (2 ^ a) pi' options) := by
    rw [nRows_ofRows main _ hk hw, hlen]; rfl
  obtain ⟨d, c, t, r1, r2, deep, layers, ps, hd, hstep, U⟩ :=
    prove_replay (a := a) (b := b) hnew ha rfl hbl hproof
  obtain ⟨g, w, D⟩ := domain_new ha rfl hbl hd
  have hsmall : (2 : Nat) ^ a < 2 ^ 64 := by
    have := D.small
    exact Nat.pow_lt_pow_right (by norm_num) (by omega)
  obtain ⟨t', hfirst⟩ := U.first
  obtain ⟨root0, rest, -, -, -, aux, haux, hcols⟩ := round1_ok D hk hlen hw hfirst
  simp only [air, Outcome.bind_eq_ok, Outcome.pure_eq, Outcome.ok.injEq] at haux
  obtain ⟨auxRows, haux, rfl⟩ := haux
  rw [Props.tableRows_ofRows hk hw] at haux
  obtain ⟨_, _, _, _, _, A⟩ := buildAuxiliaryTrace_ok haux
  have hpolys : r1.tracePolys.length = mainWidth pi + 18 := by
    rcases hcols with ⟨h0, -⟩ | ⟨-, h⟩
    · cases h0
    · exact (h auxRows rfl (by rw [A.len, hlen]) A.width).2
  refine ⟨⟨by rw [U.traceLength]; exact hsmall, ?_, ?_⟩, ?_, by rw [hlen]; exact hsmall⟩
  · obtain ⟨challenge, hn, -⟩ := U.nonce
    exact (((Props.C52_smallest_nonce_partial _ _ _ _).mp hn).1).trans_le (by norm_num)
  · rw [U.frame]
    show r1.tracePolys.length < _
    rw [hpolys]
    unfold mainWidth
    split <;> norm_num
  · intro q hq
    obtain ⟨hml, hm⟩ := mapOutcome_mem U.queries
    obtain ⟨i, hi, rfl⟩ := List.mem_iff_getElem.1 hq
    have hlay : layers ≠ [] := by
      intro h0
      have := U.fri_count
      rw [h0, D.rootOrder] at this
      simp at this; omega
    have hq := hm i (by omega) hi
    unfold Fri.answerQuery at hq
    simp only [Outcome.bind_eq_ok, Outcome.pure_eq, Outcome.ok.injEq] at hq
    obtain ⟨opened, ho, heq⟩ := hq
    rw [← heq]
    intro h0
    have h1 := (mapOutcome_mem ho).1
    rw [List.map_eq_nil_iff.mp h0, List.length_nil] at h1
    exact hlay (List.length_eq_zero_iff.mp h1.symm)

end
end Verif
