import Verif.Lemmas.ProveProg
import Verif.Lemmas.Replay

/-!
# The rounds of the prover as programs that talk to a transcript
-/

namespace Verif.Rep
open Spec Random Proximity Polynomial
variable {F T T₀ Ch X Y : Type} [Field F] [DecidableEq F] (env : Env F T₀)

theorem interpolateAndCommit (trace : TraceTable F) (domain : Domain F) :
    Rep 0 0 0 fun T tr K t => Verif.interpolateAndCommit (env.over tr K : Env F T) trace domain t := by
  refine Rep.congr (f := fun T tr K t => do
    let polys ← trace.computeTracePolys env.ta
    let evaluations ← computeLdeTraceEvaluations env polys domain
    let ldeTrace ← TraceTable.newFromCols evaluations
    let rows ← ldeTrace.rows
    let commit ← batchCommit env rows
    return ((polys, evaluations, commit.1, commit.2), tr.append t commit.2.val)) ?_ fun _ _ _ _ => rfl
  refine pre le_rfl fun polys _ => pre le_rfl fun evaluations _ => pre le_rfl fun lde _ => pre le_rfl fun rows _ =>
    pre le_rfl fun commit _ => ?_
  exact send _ _

theorem round1 (air : Air F Ch) (mainTrace : TraceTable F) (domain : Domain F) :
    Rep 0 air.numRapChallenges 0 fun T tr K t =>
      Verif.round1 (env.over tr K : Env F T) air mainTrace domain t := by
  refine Rep.congr (f := fun T tr K t => do
    let main ← Verif.interpolateAndCommit (env.over tr K : Env F T) mainTrace domain t
    let raw ← Outcome.ok ((env.over tr K : Env F T).samples air.numRapChallenges main.2)
    let auxTrace ← air.buildAuxiliaryTrace mainTrace (air.rapChallenges raw.1)
    if auxTrace.nCols = 0 then
      let ldeTrace ← TraceTable.newFromCols main.1.2.1
      return (⟨main.1.1, ldeTrace, [main.1.2.2.1], [main.1.2.2.2], air.rapChallenges raw.1⟩, raw.2)
    else
      let aux ← Verif.interpolateAndCommit (env.over tr K : Env F T) auxTrace domain raw.2
      let ldeTrace ← TraceTable.newFromCols (main.1.2.1 ++ aux.1.2.1)
      return (⟨main.1.1 ++ aux.1.1, ldeTrace, [main.1.2.2.1, aux.1.2.2.1],
        [main.1.2.2.2, aux.1.2.2.2], air.rapChallenges raw.1⟩, aux.2)) ?_ fun _ _ _ _ => rfl
  refine Rep.mono (n := 0 + (air.numRapChallenges + 0)) (ε := 0 + (0 + 0)) ?_ (by omega) (by norm_num)
  refine (interpolateAndCommit env mainTrace domain).bind (by norm_num) fun main => ?_
  dsimp only
  refine (samples env air.numRapChallenges).bind le_rfl fun raw => ?_
  dsimp only
  refine pre le_rfl fun aux _ => ?_
  by_cases h : aux.nCols = 0
  · simp only [if_pos h]
    exact pre le_rfl fun lde _ => ret _
  · simp only [if_neg h]
    refine Rep.mono (n := 0 + 0) (ε := 0 + 0) ?_ le_rfl (by norm_num)
    refine (interpolateAndCommit env aux domain).bind le_rfl fun a => ?_
    dsimp only
    exact pre le_rfl fun lde _ => ret _

/-- The loop of the commit phase, with its challenges. -/
noncomputable def commitLoopZ (e : Env F T) : Nat → F[X] → F → Nat → T →
    Outcome Empty ((F[X] × List F × List (Fri.FriLayer F)) × T)
  | 0, p, _, _, t => .ok ((p, [], []), t)
  | k + 1, p, offset, size, t => do
    let zeta ← Outcome.ok (e.sample t)
    let layer ← Fri.FriLayer.new e (Fri.foldPolynomial p zeta.1) (offset ^ 2) (size / 2)
    let u ← Outcome.ok ((), e.tr.append zeta.2 layer.merkleTree.root.val)
    let r ← commitLoopZ e k (Fri.foldPolynomial p zeta.1) (offset ^ 2) (size / 2) u.2
    return ((r.1.1, zeta.1 :: r.1.2.1, layer :: r.1.2.2), r.2)

/-- The commit phase, with its challenges. -/
noncomputable def commitPhaseZ (e : Env F T) (layers : Nat) (p : F[X]) (offset : F) (size : Nat) (t : T) :
    Outcome Empty ((F × List F × List (Fri.FriLayer F)) × T) := do
  let layer ← Fri.FriLayer.new e p offset size
  let u ← Outcome.ok ((), e.tr.append t layer.merkleTree.root.val)
  let r ← commitLoopZ e (layers - 1) p offset size u.2
  let zeta ← Outcome.ok (e.sample r.2)
  return ((((coefficients (Fri.foldPolynomial r.1.1 zeta.1)).headD 0), r.1.2.1 ++ [zeta.1], layer :: r.1.2.2),
    e.appendField zeta.2 ((coefficients (Fri.foldPolynomial r.1.1 zeta.1)).headD 0))

theorem bind_ok' (x : X) (f : X → Outcome Empty Y) : (Outcome.ok x >>= f) = f x := pure_bind x f

theorem commitLoop_eq (e : Env F T) (k : Nat) (p : F[X]) (offset : F) (size : Nat) (t : T) :
    Fri.commitLoop e k p t offset size = commitLoopZ e k p offset size t >>= fun r => .ok (r.1.1, r.2, r.1.2.2) := by
  induction k generalizing p offset size t with
  | zero => rfl
  | succ k ih =>
    rw [Fri.commitLoop, commitLoopZ]
    simp only [ih, bind_assoc, pure_bind, bind_ok']
    rfl

theorem commitPhase_eq (e : Env F T) (layers : Nat) (p : F[X]) (offset : F) (size : Nat) (t : T) :
    Fri.commitPhase e layers p t offset size
      = commitPhaseZ e layers p offset size t >>= fun r => .ok (r.1.1, r.1.2.2, r.2) := by
  unfold Fri.commitPhase commitPhaseZ
  simp only [commitLoop_eq, bind_assoc, pure_bind, bind_ok']
  rfl

theorem commitLoopZ_zetas (e : Env F T) (k : Nat) {p : F[X]} {offset : F} {size : Nat} (root : Commitment) {t t' : T}
    {p' : F[X]} {zs : List F} {ls : List (Fri.FriLayer F)}
    (h : commitLoopZ e k p offset size (e.tr.append t root.val) = .ok ((p', zs, ls), t')) :
    sampleZetas e (root :: ls.map (·.merkleTree.root)) t = (zs ++ [(e.sample t').1], (e.sample t').2) := by
  induction k generalizing p offset size root t zs ls with
  | zero =>
    obtain ⟨⟨rfl, rfl, rfl⟩, rfl⟩ : (_ ∧ _ ∧ _) ∧ _ := by
      simpa [commitLoopZ, Prod.ext_iff] using h
    rfl
  | succ k ih =>
    rw [commitLoopZ] at h
    simp only [Outcome.bind_eq_ok, Outcome.ok.injEq, exists_eq_left', Outcome.pure_eq, Prod.mk.injEq] at h
    obtain ⟨layer, -, ⟨⟨p1, zs1, ls1⟩, t1⟩, hr, ⟨rfl, rfl, rfl⟩, rfl⟩ := h
    have := ih layer.merkleTree.root hr
    rw [List.map_cons, sampleZetas]
    dsimp only
    rw [this]
    rfl

theorem commitPhaseZ_zetas {e : Env F T} {layers : Nat} {p : F[X]} {offset : F} {size : Nat} {t t' : T} {last : F}
    {zs : List F} {ls : List (Fri.FriLayer F)} (h : commitPhaseZ e layers p offset size t = .ok ((last, zs, ls), t')) :
    ls ≠ [] ∧ ∃ t1, sampleZetas e (ls.map (·.merkleTree.root)) t = (zs, t1) ∧ t' = e.appendField t1 last := by
  unfold commitPhaseZ at h
  simp only [Outcome.bind_eq_ok, Outcome.ok.injEq, exists_eq_left', Outcome.pure_eq, Prod.mk.injEq] at h
  obtain ⟨layer, -, ⟨⟨p1, zs1, ls1⟩, t1⟩, hr, ⟨rfl, rfl, rfl⟩, rfl⟩ := h
  exact ⟨List.cons_ne_nil _ _, _, commitLoopZ_zetas e _ layer.merkleTree.root hr, rfl⟩

theorem commitLoop (k : Nat) (p : F[X]) (offset : F) (size : Nat) :
    Rep 0 k 0 fun T tr K t => commitLoopZ (env.over tr K : Env F T) k p offset size t := by
  induction k generalizing p offset size with
  | zero => exact ret (p, [], [])
  | succ k ih =>
    refine Rep.mono (n := 1 + (0 + (k + 0))) (ε := 0 + (0 + (0 + 0))) ?_ (by omega) (by norm_num)
    refine (sample env).bind (by norm_num) fun zeta => ?_
    dsimp only
    refine pre (o := Fri.FriLayer.new env (Fri.foldPolynomial p zeta) (offset ^ 2) (size / 2)) (by norm_num)
      fun layer _ => ?_
    refine (send () _).bind (by norm_num) fun _ => ?_
    dsimp only
    refine (ih _ _ _).bind le_rfl fun r => ?_
    exact ret (r.1, zeta :: r.2.1, layer :: r.2.2)

theorem commitPhase (layers : Nat) (p : F[X]) (offset : F) (size : Nat) :
    Rep 0 (layers - 1 + 1) 0 fun T tr K t => commitPhaseZ (env.over tr K : Env F T) layers p offset size t := by
  refine pre (o := Fri.FriLayer.new env p offset size) le_rfl fun layer _ => ?_
  refine Rep.mono (n := 0 + (layers - 1 + (1 + 0))) (ε := 0 + (0 + (0 + 0))) ?_ (by omega) (by norm_num)
  refine (send () _).bind (by norm_num) fun _ => ?_
  dsimp only
  refine (commitLoop env _ _ _ _).bind (by norm_num) fun r => ?_
  dsimp only
  refine (sample env).bind le_rfl fun zeta => ?_
  dsimp only
  exact appendField env _ _

omit [DecidableEq F] in
theorem sampleRows (offsets k : Nat) :
    Rep 0 (offsets * k) 0 fun T tr K t => .ok (Verif.sampleRows (env.over tr K : Env F T) offsets k t) := by
  induction k with
  | zero => exact ret []
  | succ k ih =>
    refine Rep.mono (n := offsets + (offsets * k + 0)) (ε := 0 + (0 + 0)) ?_ (le_of_eq (by ring)) (by norm_num)
    refine Rep.congr (f := fun T tr K t => Outcome.ok ((env.over tr K : Env F T).samples offsets t) >>= fun x =>
      Outcome.ok (Verif.sampleRows (env.over tr K : Env F T) offsets k x.2) >>= fun r => .ok (x.1 :: r.1, r.2)) ?_
      fun _ _ _ _ => rfl
    refine (samples env offsets).bind (by norm_num) fun x => ?_
    dsimp only
    exact ih.bind le_rfl fun l => ret (x :: l)

omit [DecidableEq F] in
theorem sampleIndices (modulus k : Nat) :
    Rep 0 k 0 fun T tr K t => Fri.sampleIndices (env.over tr K : Env F T) modulus k t := by
  induction k with
  | zero => exact ret []
  | succ k ih =>
    by_cases h : modulus = 0
    · refine Rep.congr (panic.mono (Nat.zero_le _) le_rfl) fun T tr K t => ?_
      rw [Fri.sampleIndices, if_pos h]
    · refine Rep.congr (f := fun T tr K t => do
        let x ← Outcome.ok (tr.challenge t)
        let r ← Fri.sampleIndices (env.over tr K : Env F T) modulus k x.2
        return (beNat (x.1.val.take 8) % modulus :: r.1, r.2)) ?_ fun T tr K t => ?_
      · refine Rep.mono (n := 1 + (k + 0)) (ε := 0 + (0 + 0)) ?_ (by omega) (by norm_num)
        refine challenge.bind (by norm_num) fun x => ?_
        dsimp only
        exact ih.bind le_rfl fun r => ret (beNat (x.val.take 8) % modulus :: r)
      · rw [Fri.sampleIndices, if_neg h]
        rfl

omit [DecidableEq F] in
theorem queryPhase (queries size : Nat) (layers : List (Fri.FriLayer F)) :
    Rep 0 queries 0 fun T tr K t => do
      let r ← Fri.queryPhase (env.over tr K : Env F T) queries size layers t
      return ((r.1, r.2.1), r.2.2) := by
  by_cases h : layers.isEmpty
  · refine Rep.congr ((ret ([], [])).mono (Nat.zero_le _) le_rfl) fun T tr K t => ?_
    rw [Fri.queryPhase, if_pos h]
    rfl
  · refine Rep.congr (f := fun T tr K t => do
      let iotas ← Fri.sampleIndices (env.over tr K : Env F T) size queries t
      let queryList ← mapOutcome (Fri.answerQuery env layers) iotas.1
      return ((queryList, iotas.1), iotas.2)) ?_ fun T tr K t => ?_
    · refine Rep.mono (n := queries + 0) (ε := 0 + 0) ?_ le_rfl (by norm_num)
      refine (sampleIndices env size queries).bind le_rfl fun iotas => ?_
      dsimp only
      exact pre le_rfl fun l _ => ret (l, iotas)
    · rw [Fri.queryPhase, if_neg h]
      simp only [bind_assoc, pure_bind]
      rfl

/-- The number of draws of the last round. -/
def draws4 (air : Air F Ch) (domain : Domain F) : Nat :=
  2 + air.context.transitionOffsets.length * air.context.traceColumns + (domain.rootOrder - 1 + 1) + 1
    + air.context.proofOptions.friNumberOfQueries

/-- What the verifier recovers of the last round: the coefficients of the DEEP polynomial, the challenges of FRI, the
query indices and the zeros of the proof of work. -/
abbrev Tail (F : Type) : Type := F × F × List (List F) × List F × List Nat × Nat

/-- The last round, with its challenges. -/
noncomputable def round4Z (e : Env F T) (air : Air F Ch) (domain : Domain F) (r1 : Round1 F Ch) (r2 : Round2 F)
    (r3 : Round3 F) (z : F) (t : T) : Outcome Empty ((Round4 F × Tail F) × T) := do
  let gamma ← Outcome.ok (e.sample t)
  let gammaP ← Outcome.ok (e.sample gamma.2)
  let gammas ← Outcome.ok (Verif.sampleRows e air.context.transitionOffsets.length air.context.traceColumns gammaP.2)
  let deep ← computeDeepCompositionPoly air r1.tracePolys r2 r3 z domain.tracePrimitiveRoot gamma.1 gammaP.1
    gammas.1.flatten
  let fri ← commitPhaseZ e domain.rootOrder deep (air.context.proofOptions.cosetOffset : F)
    domain.ldeRootsOfUnityCoset.length gammas.2
  let challenge ← Outcome.ok (e.tr.challenge fri.2)
  let nonce ← (do
    let n ← Outcome.ofOptionUnwrap (Grinding.generateNonce e.keccak challenge.1
      air.context.proofOptions.grindingFactor.toNat)
    .ok ((n, Grinding.leadingZerosOf e.keccak challenge.1 n), challenge.2))
  let u ← Outcome.ok ((), e.tr.append nonce.2 (beBytes 8 nonce.1.1))
  let queries ← (do
    let r ← Fri.queryPhase e air.context.proofOptions.friNumberOfQueries
      domain.ldeRootsOfUnityCoset.length fri.1.2.2 u.2
    return ((r.1, r.2.1), r.2.2))
  let openings ← openDeep e domain r1 r2 queries.1.2
  return ((⟨fri.1.1, fri.1.2.2.map (·.merkleTree.root), openings, queries.1.1, nonce.1.1⟩,
    gamma.1, gammaP.1, gammas.1, fri.1.2.1, queries.1.2, nonce.1.2), queries.2)

theorem round4_eq (e : Env F T) (air : Air F Ch) (domain : Domain F) (r1 : Round1 F Ch) (r2 : Round2 F) (r3 : Round3 F)
    (z : F) (t : T) : Verif.round4 e air domain r1 r2 r3 z t
      = round4Z e air domain r1 r2 r3 z t >>= fun r => .ok (r.1.1, r.2) := by
  unfold Verif.round4 round4Z
  generalize Grinding.generateNonce = search
  obtain ⟨h1, h2, -⟩ := sampleRows_samples (env := e) air.context.transitionOffsets.length air.context.traceColumns
    (e.sample (e.sample t).2).2
  simp only [bind_assoc, pure_bind, bind_ok', commitPhase_eq, h1, h2]
  rfl

theorem round4 (air : Air F Ch) (domain : Domain F) (r1 : Round1 F Ch) (r2 : Round2 F) (r3 : Round3 F) (z : F) {m : Nat}
    (hm : m < 2 ^ 64) :
    Rep m (draws4 air domain) (probability Commitment (fun d => ¬ air.context.proofOptions.grindingFactor.toNat
        ≤ trailingZeros 64 (beNat (d.val.take 8))) ^ m)
      fun T tr K t => round4Z (env.over tr K : Env F T) air domain r1 r2 r3 z t := by
  have hn := fun seed => nonce seed (g := air.context.proofOptions.grindingFactor.toNat) hm
  have hp : (0 : ℚ) ≤ probability Commitment (fun d => ¬ air.context.proofOptions.grindingFactor.toNat
        ≤ trailingZeros 64 (beNat (d.val.take 8))) ^ m := pow_nonneg (probability_nonneg _) _
  generalize probability Commitment (fun d => ¬ air.context.proofOptions.grindingFactor.toNat
        ≤ trailingZeros 64 (beNat (d.val.take 8))) ^ m = ε at hp hn ⊢
  unfold round4Z
  generalize Grinding.generateNonce = search at hn ⊢
  refine Rep.mono (n := 1 + (1 + (air.context.transitionOffsets.length * air.context.traceColumns +
    ((domain.rootOrder - 1 + 1) + (1 + (0 + (0 + (air.context.proofOptions.friNumberOfQueries + 0))))))))
    (ε := 0 + (0 + (0 + (0 + (0 + (ε + (0 + (0 + 0)))))))) ?_ (by unfold draws4; omega)
    (by linarith)
  refine (sample env).bind (by linarith) fun gamma => ?_
  dsimp only
  refine (sample env).bind (by linarith) fun gammaP => ?_
  dsimp only
  refine (sampleRows env _ _).bind (by linarith) fun gammas => ?_
  dsimp only
  refine pre (by linarith) fun deep _ => ?_
  refine (commitPhase env _ _ _ _).bind (by linarith) fun fri => ?_
  dsimp only
  refine challenge.bind (by linarith) fun seed => ?_
  dsimp only
  refine (hn seed).bind_left (by linarith) fun nonce => ?_
  dsimp only
  refine (send () _).bind (by linarith) fun u => ?_
  dsimp only
  refine (queryPhase env _ _ _).bind le_rfl fun queries => ?_
  dsimp only
  exact pre (o := openDeep env domain r1 r2 queries.2) le_rfl fun openings _ => ret _

theorem round2_over (tr : Transcript T) (K : Bytes → Commitment) (air : Air F Ch) (domain : Domain F) (r1 : Round1 F Ch)
    (tc bc : List (F × F)) : Verif.round2 (env.over tr K) air domain r1 tc bc = Verif.round2 env air domain r1 tc bc := rfl

/-- The prover from a state of the transcript on, with its challenges. -/
noncomputable def proveFrom (e : Env F T) (air : Air F Ch) (domain : Domain F) (mainTrace : TraceTable F) (t : T) :
    Outcome Empty ((StarkProof F × Challenges F Ch) × T) := do
  let r1 ← Verif.round1 e air mainTrace domain t
  let boundary ← air.boundaryConstraints r1.1.rapChallenges
  let alphasB ← Outcome.ok (e.samples boundary.length r1.2)
  let betasB ← Outcome.ok (e.samples boundary.length alphasB.2)
  let alphasT ← Outcome.ok (e.samples air.context.numTransitionConstraints betasB.2)
  let betasT ← Outcome.ok (e.samples air.context.numTransitionConstraints alphasT.2)
  let r2 ← Verif.round2 e air domain r1.1 (alphasT.1.zip betasT.1) (alphasB.1.zip betasB.1)
  let u ← Outcome.ok ((), e.tr.append betasT.2 r2.compositionPolyRoot.val)
  let z ← Outcome.ofOptionUnwrap (e.tr.sampleZOod e.ofDigest domain.ldeRootsOfUnityCoset domain.traceRootsOfUnity u.2)
  let r3 ← Outcome.ok (Verif.round3 air domain r1.1 r2 z.1)
  let u ← Outcome.ok ((), e.appendField z.2 r3.compositionPolyEvenOodEvaluation)
  let u ← Outcome.ok ((), e.appendField u.2 r3.compositionPolyOddOodEvaluation)
  let u ← Outcome.ok ((), r3.traceOodEvaluations.foldl (fun t row => row.foldl e.appendField t) u.2)
  let r4 ← round4Z e air domain r1.1 r2 r3 z.1 u.2
  return (({ traceLength := air.traceLength
             ldeTraceMerkleRoots := r1.1.ldeTraceMerkleRoots
             traceOodFrameEvaluations := ⟨r3.traceOodEvaluations.flatten, r1.1.tracePolys.length⟩
             compositionPolyRoot := r2.compositionPolyRoot
             compositionPolyEvenOodEvaluation := r3.compositionPolyEvenOodEvaluation
             compositionPolyOddOodEvaluation := r3.compositionPolyOddOodEvaluation
             friLayersMerkleRoots := r4.1.1.friLayersMerkleRoots
             friLastValue := r4.1.1.friLastValue
             queryList := r4.1.1.queryList
             deepPolyOpenings := r4.1.1.deepPolyOpenings
             nonce := r4.1.1.nonce },
           ⟨z.1, alphasB.1.zip betasB.1, alphasT.1.zip betasT.1, r4.1.2.2.2.1, r4.1.2.1, r4.1.2.2.1, r4.1.2.2.2.2.1,
            r4.1.2.2.2.2.2.1, r1.1.rapChallenges, r4.1.2.2.2.2.2.2⟩), r4.2)

theorem prove_eq {PI : Type} (e : Env F T) {new : AirNew F Ch PI} {mainTrace : TraceTable F} {pubInputs : PI}
    {options : ProofOptions} {air : Air F Ch} {domain : Domain F}
    (hnew : new mainTrace.nRows pubInputs options = .ok air) (hd : Domain.new e.ta air = .ok domain) :
    prove e new mainTrace pubInputs options
      = proveFrom e air domain mainTrace e.tr.init >>= fun r => pure r.1.1 := by
  unfold prove proveFrom
  rw [hnew, bind_ok', hd, bind_ok']
  simp only [round4_eq]
  generalize Verif.round1 e air mainTrace domain e.tr.init = f1
  generalize hf2 : Verif.round2 e air domain = f2
  generalize hf4 : round4Z e air domain = f4
  simp only [bind_assoc, pure_bind, bind_ok']

theorem proveFrom_rep (air : Air F Ch) (domain : Domain F) (mainTrace : TraceTable F) {nb : Nat}
    (hb : ∀ ch cs, air.boundaryConstraints ch = .ok cs → cs.length = nb) (r : Nat) {m : Nat} (hm : m < 2 ^ 64) :
    Rep m (air.numRapChallenges + 2 * nb + 2 * air.context.numTransitionConstraints + r + draws4 air domain)
      (probability Commitment (fun d => env.ofDigest d ∈ domain.ldeRootsOfUnityCoset ++ domain.traceRootsOfUnity) ^ r
        + probability Commitment (fun d => ¬ air.context.proofOptions.grindingFactor.toNat
        ≤ trailingZeros 64 (beNat (d.val.take 8))) ^ m)
      fun T tr K t => proveFrom (env.over tr K : Env F T) air domain mainTrace t := by
  have h4 := fun r1 r2 r3 z => round4 env air domain r1 r2 r3 z hm
  have hp : (0 : ℚ) ≤ probability Commitment (fun d => ¬ air.context.proofOptions.grindingFactor.toNat
        ≤ trailingZeros 64 (beNat (d.val.take 8))) ^ m := pow_nonneg (probability_nonneg _) _
  generalize probability Commitment (fun d => ¬ air.context.proofOptions.grindingFactor.toNat
        ≤ trailingZeros 64 (beNat (d.val.take 8))) ^ m = ε at hp h4 ⊢
  have hz := point env domain.ldeRootsOfUnityCoset domain.traceRootsOfUnity r
  have hq : (0 : ℚ) ≤ probability Commitment (fun d => env.ofDigest d
    ∈ domain.ldeRootsOfUnityCoset ++ domain.traceRootsOfUnity) ^ r := pow_nonneg (probability_nonneg _) _
  generalize probability Commitment (fun d => env.ofDigest d
    ∈ domain.ldeRootsOfUnityCoset ++ domain.traceRootsOfUnity) ^ r = ζ at hq hz ⊢
  unfold proveFrom
  simp only [round2_over]
  refine Rep.mono (n := air.numRapChallenges + (nb + (nb + (air.context.numTransitionConstraints
    + (air.context.numTransitionConstraints + (0 + (r + (0 + (0 + (0 + (draws4 air domain + 0)))))))))))
    (ε := 0 + (0 + (0 + (0 + (0 + (0 + (ζ + (0 + (0 + (0 + (ε + 0))))))))))) ?_ (by omega) (by linarith)
  refine (round1 env air mainTrace domain).bind (by linarith) fun r1 => ?_
  dsimp only
  refine pre (by linarith) fun cs hcs => ?_
  rw [hb _ cs hcs]
  refine (samples env _).bind (by linarith) fun aB => ?_
  dsimp only
  refine (samples env _).bind (by linarith) fun bB => ?_
  dsimp only
  refine (samples env _).bind (by linarith) fun aT => ?_
  dsimp only
  refine (samples env _).bind (by linarith) fun bT => ?_
  dsimp only
  refine pre (by linarith) fun r2 _ => ?_
  refine (send () _).bind (by linarith) fun _ => ?_
  dsimp only
  refine hz.bind (by linarith) fun z => ?_
  dsimp only
  refine pre (by linarith) fun r3 _ => ?_
  refine (appendField env () _).bind (by linarith) fun _ => ?_
  dsimp only
  refine (appendField env () _).bind (by linarith) fun _ => ?_
  dsimp only
  refine (foldl fun row _ => foldl fun v _ => appendField env () v).bind (by linarith) fun _ => ?_
  dsimp only
  refine (h4 r1 r2 r3 z).bind_left le_rfl fun r4 => ?_
  dsimp only
  exact ret _

/-- The prover is a program that talks to a transcript. -/
theorem prove {PI : Type} {new : AirNew F Ch PI} {mainTrace : TraceTable F} {pubInputs : PI}
    {options : ProofOptions} {air : Air F Ch} {domain : Domain F}
    (hnew : new mainTrace.nRows pubInputs options = .ok air) (hd : Domain.new env.ta air = .ok domain) {nb : Nat}
    (hb : ∀ ch cs, air.boundaryConstraints ch = .ok cs → cs.length = nb) (r : Nat) {m : Nat} (hm : m < 2 ^ 64) :
    ∃ p : Prog (Outcome Empty (StarkProof F × Challenges F Ch)),
      p.Draws (air.numRapChallenges + 2 * nb + 2 * air.context.numTransitionConstraints + r + draws4 air domain) ∧
      p.Hashes m 0 ∧
      p.stopProb ≤ probability Commitment (fun d => env.ofDigest d
          ∈ domain.ldeRootsOfUnityCoset ++ domain.traceRootsOfUnity) ^ r
        + probability Commitment (fun d => ¬ air.context.proofOptions.grindingFactor.toNat
        ≤ trailingZeros 64 (beNat (d.val.take 8))) ^ m ∧
      ∀ (T : Type) (tr : Transcript T) (K : Bytes → Commitment) o t', p.run tr K tr.init = some (o, t') →
        proveFrom (env.over tr K) air domain mainTrace tr.init = (o >>= fun x => .ok (x, t')) ∧
        Verif.prove (env.over tr K) new mainTrace pubInputs options = o >>= fun x => .ok x.1 := by
  obtain ⟨p, h1, h2, h3, h4⟩ := proveFrom_rep env air domain mainTrace hb r hm
  refine ⟨p, h1, h2, h3, fun T tr K o t' hr => ?_⟩
  have : proveFrom (env.over tr K) air domain mainTrace tr.init = _ := h4 T tr K tr.init o t' hr
  refine ⟨this, ?_⟩
  rw [prove_eq (env.over tr K) hnew hd]
  show (proveFrom (env.over tr K) air domain mainTrace tr.init >>= _) = _
  rw [this]
  cases o with
  | ok x => rfl
  | err e => exact e.elim
  | panic => rfl

/-- The verifier recovers the challenges of the prover. -/
theorem proveFrom_replay {e : Env F T} {air : Air F Ch} {d : Domain F} {a b : Nat} {g w : F}
    (D : IsDomain e.ta d a b (air.context.proofOptions.cosetOffset : F) g w)
    {trace : TraceTable F} {proof : StarkProof F} {c : Challenges F Ch} {t : T}
    (h : proveFrom e air d trace e.tr.init = .ok ((proof, c), t)) :
    proof.traceLength = air.traceLength ∧ ∃ t', step1 e air proof d e.tr.init = .ok (c, t') := by
  unfold proveFrom round4Z at h
  simp only [Outcome.bind_eq_ok, Outcome.ok.injEq, exists_eq_left', bind_assoc, pure_bind] at h
  obtain ⟨⟨r1, t1⟩, hr1, boundary, hbound, r2, hr2, ⟨z, tz⟩, hz, deep, hdeep, ⟨⟨last, zs, layers⟩, tf⟩, hfri, nonce,
    hnonce, ⟨ql, iotas, t3'⟩, hq, openings, hopen, hproof⟩ := h
  obtain ⟨root0, rest, hroots, hrap, ht1⟩ := round1_transcript hr1
  have hpos := round1_polys hr1
  dsimp only at hbound hr2 hz hdeep hfri hnonce hq hopen hproof
  generalize h2 : e.samples boundary.length t1 = x2 at hr2 hz hproof
  obtain ⟨aB, t2⟩ := x2
  generalize h3 : e.samples boundary.length t2 = x3 at hr2 hz hproof
  obtain ⟨bB, t3⟩ := x3
  dsimp only at hr2 hz hproof
  generalize h4 : e.samples air.context.numTransitionConstraints t3 = x4 at hr2 hz hproof
  obtain ⟨aT, t4'⟩ := x4
  dsimp only at hr2 hz hproof
  generalize h5 : e.samples air.context.numTransitionConstraints t4' = x5 at hr2 hz hproof
  obtain ⟨bT, t5⟩ := x5
  dsimp only at hr2 hz hproof
  generalize h7 : (List.foldl (fun t row => List.foldl e.appendField t row)
    (e.appendField (e.appendField tz (round3 air d r1 r2 z).compositionPolyEvenOodEvaluation)
      (round3 air d r1 r2 z).compositionPolyOddOodEvaluation) (round3 air d r1 r2 z).traceOodEvaluations)
    = t7 at hdeep hfri hproof
  generalize h8 : e.sample t7 = x8 at hdeep hfri hproof
  obtain ⟨ge, t8⟩ := x8
  dsimp only at hdeep hfri hproof
  generalize h9 : e.sample t8 = x9 at hdeep hfri hproof
  obtain ⟨go, t9⟩ := x9
  dsimp only at hdeep hfri hproof
  generalize h10 : Verif.sampleRows e air.context.transitionOffsets.length air.context.traceColumns t9 = x10
    at hdeep hfri hproof
  obtain ⟨rows, t10⟩ := x10
  dsimp only at hdeep hfri hproof
  obtain ⟨hne, t11, hzs, ht11⟩ := commitPhaseZ_zetas hfri
  subst ht11
  generalize h12 : e.tr.challenge (e.appendField t11 last) = x12 at hnonce hq hproof
  obtain ⟨chal, t12⟩ := x12
  dsimp only at hnonce hq hproof
  unfold Fri.queryPhase at hq
  rw [if_neg (by
    intro hc
    exact hne (List.isEmpty_iff.mp hc))] at hq
  simp only [Outcome.bind_eq_ok, Outcome.pure_eq, Outcome.ok.injEq, Prod.mk.injEq] at hq
  obtain ⟨⟨io, t13⟩, hio, ql', hql, rfl, rfl, rfl⟩ := hq
  have hp := Outcome.ok.inj hproof
  simp only [Prod.mk.injEq] at hp
  obtain ⟨⟨rfl, rfl⟩, rfl⟩ := hp
  have hframe : (round3 air d r1 r2 z).traceOodEvaluations
      = frameRows r1.tracePolys air.context.transitionOffsets d.tracePrimitiveRoot z := by
    simp only [round3, Frame.getTraceEvaluations, frameRows, List.map_map]
    rfl
  rw [D.lde_length] at hio
  refine ⟨rfl, _, step1_eq hroots hrap ht1 hbound h2 h3 h4 h5
    (ofOptionUnwrap_ok.mp hz) (t7 := t7) (io := io) (t13 := t13) ?_ h8 h9 h10 hzs h12 ?_⟩
  · dsimp only
    rw [hframe, appendFrame_ok r1.tracePolys hpos, ← hframe, h7]
  · simp only [D.ldeRootOrder, iotaMax_of_lt D.small]
    exact hio

end Verif.Rep
