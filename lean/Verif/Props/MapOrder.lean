import Verif.Spec.MapOrder
import Verif.Props.Cli

/-!
# C64: results do not depend on the iteration order of hash maps
-/

namespace Verif.Props
open Runner Spec ExecTrace CairoAir Cli

theorem same_perm {K V : Type} [DecidableEq K] {m m' : HMap K V} (h : m.WF) (h' : m'.WF) (hs : m.Same m') :
    m.Perm m' := by
  have hnd : ∀ {l : HMap K V}, l.WF → l.Nodup := fun hl => List.Nodup.of_map _ hl
  refine (List.perm_ext_iff_of_nodup (hnd h) (hnd h')).2 ?_
  rintro ⟨k, v⟩
  rw [HMap.mem_iff_get? h, HMap.mem_iff_get? h', hs k]

theorem memory_product {z alpha : FE} {l l' : List (FE × FE)} (h : l.Perm l') :
    l.foldl (fun product e => product * (z - (e.1 + alpha * e.2))) 1
      = l'.foldl (fun product e => product * (z - (e.1 + alpha * e.2))) 1 :=
  h.foldl_eq' (fun x _ y _ acc => by ring) _

section
variable {p q : PublicInputs} (hp : p.WF) (hq : q.WF) (h : SameInputs p q)
include hp hq h

theorem same_rc : hasRcBuiltin p = hasRcBuiltin q := by
  have := (same_perm hp.segs_wf hq.segs_wf h.memorySegments).length_eq
  unfold hasRcBuiltin
  cases hp' : p.memorySegments <;> cases hq' : q.memorySegments <;> simp_all

theorem same_length : p.publicMemory.length = q.publicMemory.length :=
  (same_perm hp.mem_wf hq.mem_wf h.publicMemory).length_eq

theorem same_air (n : Nat) (options : ProofOptions) : air n p options = air n q options := by
  have hrc := same_rc hp hq h
  have hb : boundaryConstraints p n = boundaryConstraints q n := by
    funext ch
    unfold boundaryConstraints
    rw [h.numSteps, hrc, memory_product (same_perm hp.mem_wf hq.mem_wf h.publicMemory), h.rangeCheckMin,
      h.rangeCheckMax, h.pcInit, h.apInit, h.pcFinal, h.apFinal, same_length hp hq h]
  have ha : ∀ rows ch, buildAuxiliaryTrace p rows ch = buildAuxiliaryTrace q rows ch := by
    intro rows ch
    unfold buildAuxiliaryTrace addPubMemory
    simp only [same_length hp hq h, h.memorySegments .output, h.publicMemory _]
  unfold air
  simp only [hrc, hb, ha]

/-- **C64**: the verdict on a proof does not depend on the order in which the hash maps of the public inputs
iterate. -/
theorem C64_verify_order {T : Type} (env : Env FE T) (proof : StarkProof FE) (options : ProofOptions) :
    verifyCairoProof env proof p options = verifyCairoProof env proof q options := by
  have hnew : ∀ n, CairoAir.new n p options = CairoAir.new n q options := by
    intro n
    unfold CairoAir.new
    rw [same_air hp hq h]
  unfold verifyCairoProof verify
  simp only [hnew]

/-- **C64**: the proof does not depend on the order in which the hash maps of the public inputs iterate. -/
theorem C64_prove_order {T : Type} (env : Env FE T) (trace : TraceTable FE) (options : ProofOptions) :
    generateCairoProof env trace p options = generateCairoProof env trace q options := by
  have hnew : ∀ n, CairoAir.new n p options = CairoAir.new n q options := by
    intro n
    unfold CairoAir.new
    rw [same_air hp hq h]
  unfold generateCairoProof prove
  simp only [hnew]

/-- **C64**: files that hold the same proof and public inputs that differ at most in the order in which their
hash maps iterate lead to the same result of `verify`. -/
theorem C64_file_order {T : Type} {env : Env FE T} {vm : Vm} {w w' : World} {name path path' : String}
    {rest : List String} {proof : StarkProof FE} (hproof : MachineSized proof) {file file' : Bytes}
    (hw : writeProofFile proof p = .ok file) (hl : file.length < 2 ^ 64)
    (hw' : writeProofFile proof q = .ok file') (hl' : file'.length < 2 ^ 64)
    (hr : w.read path = some file) (hr' : w'.read path' = some file') :
    Cli.main env vm w (name :: "verify" :: path :: rest)
      = Cli.main env vm w' (name :: "verify" :: path' :: rest) := by
  rw [verify_reads hr (C08_proof_file_roundtrip proof p hproof hp file hw hl),
    verify_reads hr' (C08_proof_file_roundtrip proof q hproof hq file' hw' hl'), verifyProof, verifyProof,
    C64_verify_order hp hq h]

/-- **C64**: the main trace and the public inputs completed with it do not depend on the order in which the
hash maps of the memory and of the public inputs iterate. -/
theorem C64_trace_order {states : List RegistersState} {mem mem' : CairoMemory} (hm : mem.Same mem')
    {rows : List (List FE)} {p' : PublicInputs} (hb : buildMainTrace states mem p = .ok (rows, p')) :
    ∃ q', buildMainTrace states mem' q = .ok (rows, q') ∧ SameInputs p' q' := by
  have hg : memGet mem = memGet mem' := by
    funext a
    unfold memGet
    rw [hm a]
  have hs : stepCells mem = stepCells mem' := by
    funext t
    unfold stepCells instructionFlagsAndOffsets computeDst computeOp0 computeOp1 access
    simp only [hg, hm t.pc]
  have he : buildCairoExecutionTrace states mem p = buildCairoExecutionTrace states mem' q := by
    unfold buildCairoExecutionTrace rcValues
    simp only [hs, hg, h.memorySegments .rangeCheck]
  unfold buildMainTrace at hb ⊢
  rw [he] at hb
  simp only [same_length hp hq h] at hb
  simp only [Outcome.bind_eq_ok, Outcome.pure_eq, Outcome.ok.injEq, Prod.exists, Prod.mk.injEq] at hb ⊢
  obtain ⟨exec, h1, rcHoles, lo, hi, h2, holes, h3, last1, h4, last2, h5, last3, h6, h7, rfl⟩ := hb
  refine ⟨_, ⟨exec, h1, rcHoles, lo, hi, h2, holes, h3, last1, h4, last2, h5, last3, h6, h7, rfl⟩, ?_⟩
  exact ⟨h.pcInit, h.apInit, h.fpInit, h.pcFinal, h.apFinal, rfl, rfl, h.numSteps, h.memorySegments,
    h.publicMemory⟩

end

/-- **C64**: the public inputs of a run do not depend on the order in which the hash map of the memory
iterates. -/
theorem C64_public_inputs_order {states : List RegistersState} {mem mem' : CairoMemory} (hm : mem.Same mem')
    (size : Nat) (segs : MemorySegmentMap) :
    fromRegsAndMem states mem size segs = fromRegsAndMem states mem' size segs := by
  have hg : memGet mem = memGet mem' := by
    funext a
    unfold memGet
    rw [hm a]
  unfold fromRegsAndMem publicCells
  simp only [hg]

/-! ## The hypotheses are met -/

namespace Examples

/-- The public inputs of the run of `simple_program`, with the public memory listed backwards. -/
def reversed : PublicInputs :=
  { Verif.Examples.main0.2 with publicMemory := Verif.Examples.main0.2.publicMemory.reverse }

theorem main0_wf : Verif.Examples.main0.2.WF :=
  ⟨by unfold HMap.WF; decide +kernel, by decide +kernel, by unfold HMap.WF; decide +kernel, by decide +kernel⟩

theorem reversed_wf : reversed.WF :=
  ⟨main0_wf.segs_wf, main0_wf.segs_lt, by
    have : (Verif.Examples.main0.2.publicMemory.map Prod.fst).reverse.Nodup := List.nodup_reverse.2 main0_wf.mem_wf
    rwa [← List.map_reverse] at this, main0_wf.steps_lt⟩

theorem perm_same {K V : Type} [DecidableEq K] {m m' : HMap K V} (h : m.WF) (h' : m'.WF) (hs : m.Perm m') :
    m.Same m' := by
  intro k
  apply Option.ext
  intro v
  rw [← HMap.mem_iff_get? h, ← HMap.mem_iff_get? h', hs.mem_iff]

theorem reversed_same : SameInputs Verif.Examples.main0.2 reversed :=
  ⟨rfl, rfl, rfl, rfl, rfl, rfl, rfl, rfl, fun _ => rfl,
    perm_same main0_wf.mem_wf reversed_wf.mem_wf (List.reverse_perm _).symm⟩

example : reversed ≠ Verif.Examples.main0.2 := by
  intro h
  have := congrArg (fun p => p.publicMemory.head?) h
  revert this
  decide +kernel

example (proof : StarkProof FE) : verifyCairoProof Verif.Examples.envFar proof Verif.Examples.main0.2
      ProofOptions.defaultTestOptions
    = verifyCairoProof Verif.Examples.envFar proof reversed ProofOptions.defaultTestOptions :=
  C64_verify_order main0_wf reversed_wf reversed_same _ _ _

/-- The memory of `simple_program`, listed backwards. -/
def reversedMem : CairoMemory := Verif.Examples.mem.reverse

theorem reversedMem_same : Verif.Examples.mem.Same reversedMem :=
  perm_same (by unfold HMap.WF; decide +kernel) (by unfold HMap.WF; decide +kernel) (List.reverse_perm _).symm

example : fromRegsAndMem Verif.Examples.states reversedMem 5 [] = .ok Verif.Examples.pi0 ∧
    ∃ q', buildMainTrace Verif.Examples.states reversedMem Verif.Examples.pi0 = .ok (Verif.Examples.main0.1, q') :=
  ⟨by rw [← C64_public_inputs_order reversedMem_same]; exact Verif.Examples.pi0_eq, by
    obtain ⟨q', h, -⟩ := C64_trace_order (p := Verif.Examples.pi0) (q := Verif.Examples.pi0)
      (rows := Verif.Examples.main0.1) (p' := Verif.Examples.main0.2)
      ⟨by unfold HMap.WF; decide +kernel, by decide +kernel, by unfold HMap.WF; decide +kernel, by decide +kernel⟩
      ⟨by unfold HMap.WF; decide +kernel, by decide +kernel, by unfold HMap.WF; decide +kernel, by decide +kernel⟩
      ⟨rfl, rfl, rfl, rfl, rfl, rfl, rfl, rfl, fun _ => rfl, fun _ => rfl⟩ reversedMem_same
      (Verif.Examples.main0_eq.trans (congrArg Outcome.ok (Prod.mk.eta (p := Verif.Examples.main0)).symm))
    exact ⟨q', h⟩⟩

end Examples

end Verif.Props
