import Verif.Lemmas.ProveTalk
import Verif.Lemmas.Complete

/-!
# The verifier as a program that talks to a transcript
-/

namespace Verif.Rep
open Spec Random Proximity Polynomial
variable {F T T₀ Ch X Y : Type} [Field F] [DecidableEq F] (env : Env F T₀)

/-- The hash of one nonce. -/
theorem work (seed : Commitment) {n : Nat} (hn : n < 2 ^ 64) :
    Rep (n + 1) 0 0 fun _ _ K t => .ok (Grinding.leadingZerosOf K seed n, t) := by
  have hl := label_message seed (i := n) (hn.trans_eq (by norm_num))
  refine ⟨.hash (seed.val ++ leBytes 8 n) fun d => .ret (.ok (trailingZeros 64 (beNat (d.val.take 8)))),
    fun _ => trivial, ⟨?_, Nat.zero_le _, by rw [hl]; omega, fun _ => trivial⟩, ?_, ?_⟩
  · rw [List.length_append, seed.property, length_leBytes]
  · exact le_of_eq (by rw [Prog.stopProb, Finset.sum_eq_zero (fun (_ : Commitment) _ => by rfl), zero_div])
  · intro T tr K t o t' h
    cases h
    rfl

/-- One element after the other, when each may panic. -/
theorem foldlM {l : List Y} {g : ∀ T : Type, Transcript T → (Bytes → Commitment) → T → Y → Outcome Empty T}
    (hg : ∀ y ∈ l, Rep 0 0 0 fun T tr K t => g T tr K t y >>= fun t => .ok ((), t)) :
    Rep 0 0 0 fun T tr K t => l.foldlM (g T tr K) t >>= fun t => .ok ((), t) := by
  induction l with
  | nil => exact ret ()
  | cons y l ih =>
    refine Rep.mono (n := 0 + 0) (ε := 0 + 0) ?_ le_rfl (by norm_num)
    refine Rep.congr (f := fun T tr K t => (g T tr K t y >>= fun t => .ok ((), t)) >>= fun r =>
      l.foldlM (g T tr K) r.2 >>= fun t => .ok ((), t))
      ((hg y List.mem_cons_self).bind le_rfl fun _ => ih fun y hy => hg y (List.mem_cons_of_mem _ hy)) fun T tr K t => ?_
    rw [List.foldlM_cons]
    simp only [bind_assoc, bind_ok']

omit [DecidableEq F] in
theorem appendFrame (frame : Frame F) :
    Rep 0 0 0 fun T tr K t => Verif.appendFrame (env.over tr K : Env F T) frame t >>= fun t => .ok ((), t) := by
  refine Rep.congr (f := fun T tr K t => (frame.numRows : Outcome Empty Nat) >>= fun rows =>
    (List.range rows).foldlM (fun t i => do
      let row ← frame.getRow i
      return row.foldl (env.over tr K : Env F T).appendField t) t >>= fun t => .ok ((), t)) ?_ fun T tr K t => ?_
  · refine pre le_rfl fun rows _ => ?_
    refine foldlM fun i _ => ?_
    refine Rep.congr (f := fun T tr K t => (frame.getRow i : Outcome Empty (List F)) >>= fun row =>
      .ok ((), row.foldl (env.over tr K : Env F T).appendField t)) ?_ fun T tr K t => ?_
    · exact pre le_rfl fun row _ => foldl fun v _ => appendField env () v
    · simp only [bind_assoc, pure_bind]
  · unfold Verif.appendFrame
    simp only [bind_assoc]

omit [DecidableEq F] in
theorem sampleZetas (roots : List Commitment) :
    Rep 0 roots.length 0 fun T tr K t => .ok (Verif.sampleZetas (env.over tr K : Env F T) roots t) := by
  induction roots with
  | nil => exact ret []
  | cons root roots ih =>
    refine Rep.mono (n := 0 + (1 + (roots.length + 0))) (ε := 0 + (0 + (0 + 0))) ?_ (by rw [List.length_cons]; omega)
      (by norm_num)
    refine Rep.congr (f := fun T tr K t => Outcome.ok ((), tr.append t root.val) >>= fun u =>
      Outcome.ok ((env.over tr K : Env F T).sample u.2) >>= fun x =>
      Outcome.ok (Verif.sampleZetas (env.over tr K : Env F T) roots x.2) >>= fun r => .ok (x.1 :: r.1, r.2)) ?_
      fun _ _ _ _ => rfl
    refine (send () _).bind (by norm_num) fun _ => ?_
    dsimp only
    refine (sample env).bind (by norm_num) fun x => ?_
    dsimp only
    exact ih.bind le_rfl fun l => ret (x :: l)

/-- The number of draws after the point. -/
def drawsV (air : Air F Ch) (proof : StarkProof F) : Nat :=
  2 + air.context.transitionOffsets.length * air.context.traceColumns + proof.friLayersMerkleRoots.length + 1
    + air.context.proofOptions.friNumberOfQueries

/-- A step that cannot stop. -/
theorem bind_zero {f : Talk X} {g : ∀ T : Type, Transcript T → (Bytes → Commitment) → X × T → Outcome Empty (Y × T)}
    (hf : Rep 0 n 0 f) (hε : 0 ≤ ε) (hg : ∀ x, Rep M n' ε fun T tr K t => g T tr K (x, t)) :
    Rep M (n + n') ε fun T tr K t => f T tr K t >>= fun r => g T tr K r :=
  (hf.bind hε hg).mono le_rfl (zero_add ε).le

/-- What the verifier does after it has sent the frame. -/
def step1Tail (e : Env F T) (air : Air F Ch) (proof : StarkProof F) (domain : Domain F) (rap : Ch) (z : F)
    (boundary transition : List (F × F)) (t : T) : Outcome Empty (Challenges F Ch × T) := do
  let gammaEven ← Outcome.ok (e.sample t)
  let gammaOdd ← Outcome.ok (e.sample gammaEven.2)
  let rows ← Outcome.ok (Verif.sampleRows e air.context.transitionOffsets.length air.context.traceColumns gammaOdd.2)
  let zetas ← Outcome.ok (Verif.sampleZetas e proof.friLayersMerkleRoots rows.2)
  let u ← Outcome.ok ((), e.appendField zetas.2 proof.friLastValue)
  let seed ← Outcome.ok (e.tr.challenge u.2)
  let zeros ← Outcome.ok (Grinding.leadingZerosOf e.keccak seed.1 proof.nonce, seed.2)
  let u ← Outcome.ok ((), e.tr.append zeros.2 (beBytes 8 proof.nonce))
  let iotas ← Fri.sampleIndices e (iotaMax domain.ldeRootOrder) air.context.proofOptions.friNumberOfQueries u.2
  return (⟨z, boundary, transition, rows.1, gammaEven.1, gammaOdd.1, zetas.1, iotas.1, rap, zeros.1⟩, iotas.2)

/-- What the verifier does after it has drawn the point. -/
def step1Mid (e : Env F T) (air : Air F Ch) (proof : StarkProof F) (domain : Domain F) (rap : Ch) (z : F)
    (boundary transition : List (F × F)) (t : T) : Outcome Empty (Challenges F Ch × T) := do
  let u ← Outcome.ok ((), e.appendField t proof.compositionPolyEvenOodEvaluation)
  let u ← Outcome.ok ((), e.appendField u.2 proof.compositionPolyOddOodEvaluation)
  let u ← (Verif.appendFrame e proof.traceOodFrameEvaluations u.2 >>= fun t => .ok ((), t))
  step1Tail e air proof domain rap z boundary transition u.2

/-- What the verifier does after it has read the boundary constraints. -/
noncomputable def step1Head (e : Env F T) (air : Air F Ch) (proof : StarkProof F) (domain : Domain F) (rap : Ch) (nb : Nat)
    (t : T) : Outcome Empty (Challenges F Ch × T) := do
  let alphasB ← Outcome.ok (e.samples nb t)
  let betasB ← Outcome.ok (e.samples nb alphasB.2)
  let alphasT ← Outcome.ok (e.samples air.context.numTransitionConstraints betasB.2)
  let betasT ← Outcome.ok (e.samples air.context.numTransitionConstraints alphasT.2)
  let u ← Outcome.ok ((), e.tr.append betasT.2 proof.compositionPolyRoot.val)
  let z ← Outcome.ofOptionUnwrap (e.tr.sampleZOod e.ofDigest domain.ldeRootsOfUnityCoset domain.traceRootsOfUnity u.2)
  step1Mid e air proof domain rap z.1 (alphasB.1.zip betasB.1) (alphasT.1.zip betasT.1) z.2

/-- The root of the auxiliary trace, if there is one. -/
def sendAux (tr : Transcript T) (roots : List Commitment) (t : T) : T :=
  match roots[1]? with
  | some root => tr.append t root.val
  | none => t

theorem step1_eq (e : Env F T) (air : Air F Ch) (proof : StarkProof F) (domain : Domain F) (t : T) :
    Verif.step1 e air proof domain t = (do
      let root0 ← index proof.ldeTraceMerkleRoots 0
      let u ← Outcome.ok ((), e.tr.append t root0.val)
      let raw ← Outcome.ok (e.samples air.numRapChallenges u.2)
      let u ← Outcome.ok ((), sendAux e.tr proof.ldeTraceMerkleRoots raw.2)
      let boundary ← air.boundaryConstraints (air.rapChallenges raw.1)
      step1Head e air proof domain (air.rapChallenges raw.1) boundary.length u.2) := by
  unfold Verif.step1 step1Head step1Mid step1Tail buildRapChallenges sendAux
  cases proof.ldeTraceMerkleRoots[1]? <;> simp only [bind_assoc, bind_ok']

omit [DecidableEq F] in
theorem step1Tail_rep (air : Air F Ch) (proof : StarkProof F) (domain : Domain F) (hn : proof.nonce < 2 ^ 64) (rap : Ch)
    (z : F) (boundary transition : List (F × F)) :
    Rep (proof.nonce + 1) (drawsV air proof) 0
      fun T tr K t => step1Tail (env.over tr K : Env F T) air proof domain rap z boundary transition t := by
  refine Rep.mono (n := 1 + (1 + (air.context.transitionOffsets.length * air.context.traceColumns
    + (proof.friLayersMerkleRoots.length + (0 + (1 + (0 + (0
    + (air.context.proofOptions.friNumberOfQueries + 0))))))))) ?_ (by unfold drawsV; omega) le_rfl
  refine (sample env).bind_zero le_rfl fun ge => ?_
  dsimp only
  refine (sample env).bind_zero le_rfl fun go => ?_
  dsimp only
  refine (sampleRows env _ _).bind_zero le_rfl fun rows => ?_
  dsimp only
  refine (sampleZetas env _).bind_zero le_rfl fun zetas => ?_
  dsimp only
  refine (appendField env () _).bind_zero le_rfl fun _ => ?_
  dsimp only
  refine challenge.bind_zero le_rfl fun seed => ?_
  dsimp only
  refine Rep.mono (ε := 0 + 0) ((work seed hn).bind_left le_rfl fun zeros => ?_) le_rfl (zero_add _).le
  dsimp only
  refine (send () _).bind_zero le_rfl fun _ => ?_
  dsimp only
  refine (sampleIndices env _ _).bind_zero le_rfl fun iotas => ?_
  dsimp only
  exact ret _

omit [DecidableEq F] in
theorem step1Mid_rep (air : Air F Ch) (proof : StarkProof F) (domain : Domain F) (hn : proof.nonce < 2 ^ 64) (rap : Ch)
    (z : F) (boundary transition : List (F × F)) :
    Rep (proof.nonce + 1) (drawsV air proof) 0
      fun T tr K t => step1Mid (env.over tr K : Env F T) air proof domain rap z boundary transition t := by
  refine Rep.mono (n := 0 + (0 + (0 + drawsV air proof))) ?_ (by omega) le_rfl
  refine (appendField env () _).bind_zero le_rfl fun _ => ?_
  dsimp only
  refine (appendField env () _).bind_zero le_rfl fun _ => ?_
  dsimp only
  refine (appendFrame env _).bind_zero le_rfl fun _ => ?_
  dsimp only
  exact step1Tail_rep env air proof domain hn rap z boundary transition

theorem step1Head_rep (air : Air F Ch) (proof : StarkProof F) (domain : Domain F) (nb r : Nat)
    (hn : proof.nonce < 2 ^ 64) (rap : Ch) :
    Rep (proof.nonce + 1) (2 * nb + 2 * air.context.numTransitionConstraints + r + drawsV air proof)
      (probability Commitment (fun d => env.ofDigest d
        ∈ domain.ldeRootsOfUnityCoset ++ domain.traceRootsOfUnity) ^ r)
      fun T tr K t => step1Head (env.over tr K : Env F T) air proof domain rap nb t := by
  have hz := point env domain.ldeRootsOfUnityCoset domain.traceRootsOfUnity r
  have hq : (0 : ℚ) ≤ probability Commitment (fun d => env.ofDigest d
    ∈ domain.ldeRootsOfUnityCoset ++ domain.traceRootsOfUnity) ^ r := pow_nonneg (probability_nonneg _) _
  generalize probability Commitment (fun d => env.ofDigest d
    ∈ domain.ldeRootsOfUnityCoset ++ domain.traceRootsOfUnity) ^ r = ζ at hq hz ⊢
  refine Rep.mono (n := nb + (nb + (air.context.numTransitionConstraints
    + (air.context.numTransitionConstraints + (0 + (r + drawsV air proof)))))) (ε := ζ) ?_ (by omega) le_rfl
  refine (samples env _).bind_zero hq fun aB => ?_
  dsimp only
  refine (samples env _).bind_zero hq fun bB => ?_
  dsimp only
  refine (samples env _).bind_zero hq fun aT => ?_
  dsimp only
  refine (samples env _).bind_zero hq fun bT => ?_
  dsimp only
  refine (send () _).bind_zero hq fun _ => ?_
  dsimp only
  refine Rep.mono (ε := ζ + 0) (hz.bind le_rfl fun z => ?_) le_rfl (add_zero _).le
  dsimp only
  exact step1Mid_rep env air proof domain hn rap z _ _

/-- The first step of the verifier is a program that talks to a transcript. -/
theorem step1 (air : Air F Ch) (proof : StarkProof F) (domain : Domain F) {nb : Nat}
    (hb : ∀ ch cs, air.boundaryConstraints ch = .ok cs → cs.length = nb) (r : Nat) (hn : proof.nonce < 2 ^ 64) :
    Rep (proof.nonce + 1)
      (air.numRapChallenges + (2 * nb + 2 * air.context.numTransitionConstraints + r + drawsV air proof))
      (probability Commitment (fun d => env.ofDigest d
        ∈ domain.ldeRootsOfUnityCoset ++ domain.traceRootsOfUnity) ^ r)
      fun T tr K t => Verif.step1 (env.over tr K : Env F T) air proof domain t := by
  have hh := fun rap => step1Head_rep env air proof domain nb r hn rap
  have hq : (0 : ℚ) ≤ probability Commitment (fun d => env.ofDigest d
    ∈ domain.ldeRootsOfUnityCoset ++ domain.traceRootsOfUnity) ^ r := pow_nonneg (probability_nonneg _) _
  generalize probability Commitment (fun d => env.ofDigest d
    ∈ domain.ldeRootsOfUnityCoset ++ domain.traceRootsOfUnity) ^ r = ζ at hq hh ⊢
  generalize 2 * nb + 2 * air.context.numTransitionConstraints + r + drawsV air proof = n at hh ⊢
  refine Rep.mono (n := 0 + (air.numRapChallenges + (0 + n))) (ε := ζ) ?_ (by omega) le_rfl
  refine Rep.congr (f := fun T tr K t => do
      let root0 ← index proof.ldeTraceMerkleRoots 0
      let u ← Outcome.ok ((), tr.append t root0.val)
      let raw ← Outcome.ok ((env.over tr K : Env F T).samples air.numRapChallenges u.2)
      let u ← Outcome.ok ((), sendAux tr proof.ldeTraceMerkleRoots raw.2)
      let boundary ← air.boundaryConstraints (air.rapChallenges raw.1)
      step1Head (env.over tr K : Env F T) air proof domain (air.rapChallenges raw.1) boundary.length u.2) ?_
    fun T tr K t => step1_eq (env.over tr K : Env F T) air proof domain t
  refine pre hq fun root0 _ => ?_
  refine (send () _).bind_zero hq fun _ => ?_
  dsimp only
  refine (samples env _).bind_zero hq fun raw => ?_
  dsimp only
  refine (show Rep 0 0 0 fun T tr K t => .ok ((), sendAux tr proof.ldeTraceMerkleRoots t) by
      unfold sendAux
      cases proof.ldeTraceMerkleRoots[1]? with
      | none => exact ret ()
      | some root => exact send () _).bind_zero hq fun _ => ?_
  dsimp only
  refine pre hq fun cs hcs => ?_
  rw [hb _ cs hcs]
  exact hh _

/-- The transcript of a proof with one trace root, up to the point. -/
noncomputable def toPoint (e : Env F T) (air : Air F Ch) (domain : Domain F) (root compositionRoot : Commitment) (t : T) :
    Outcome Empty (F × T) := do
  let u ← Outcome.ok ((), e.tr.append t root.val)
  let raw ← Outcome.ok (e.samples air.numRapChallenges u.2)
  let boundary ← air.boundaryConstraints (air.rapChallenges raw.1)
  let alphasB ← Outcome.ok (e.samples boundary.length raw.2)
  let betasB ← Outcome.ok (e.samples boundary.length alphasB.2)
  let alphasT ← Outcome.ok (e.samples air.context.numTransitionConstraints betasB.2)
  let betasT ← Outcome.ok (e.samples air.context.numTransitionConstraints alphasT.2)
  let u ← Outcome.ok ((), e.tr.append betasT.2 compositionRoot.val)
  Outcome.ofOptionUnwrap (e.tr.sampleZOod e.ofDigest domain.ldeRootsOfUnityCoset domain.traceRootsOfUnity u.2)

theorem toPoint_rep (air : Air F Ch) (domain : Domain F) (root compositionRoot : Commitment) {nb : Nat}
    (hb : ∀ ch cs, air.boundaryConstraints ch = .ok cs → cs.length = nb) (r : Nat) :
    Rep 0 (air.numRapChallenges + 2 * nb + 2 * air.context.numTransitionConstraints + r)
      (probability Commitment (fun d => env.ofDigest d
        ∈ domain.ldeRootsOfUnityCoset ++ domain.traceRootsOfUnity) ^ r)
      fun T tr K t => toPoint (env.over tr K : Env F T) air domain root compositionRoot t := by
  have hz := point env domain.ldeRootsOfUnityCoset domain.traceRootsOfUnity r
  have hq : (0 : ℚ) ≤ probability Commitment (fun d => env.ofDigest d
    ∈ domain.ldeRootsOfUnityCoset ++ domain.traceRootsOfUnity) ^ r := pow_nonneg (probability_nonneg _) _
  generalize probability Commitment (fun d => env.ofDigest d
    ∈ domain.ldeRootsOfUnityCoset ++ domain.traceRootsOfUnity) ^ r = ζ at hq hz ⊢
  refine Rep.mono (n := 0 + (air.numRapChallenges + (nb + (nb + (air.context.numTransitionConstraints
    + (air.context.numTransitionConstraints + (0 + r))))))) (ε := ζ) ?_ (by omega) le_rfl
  refine (send () _).bind_zero hq fun _ => ?_
  dsimp only
  refine (samples env _).bind_zero hq fun raw => ?_
  dsimp only
  refine pre hq fun cs hcs => ?_
  rw [hb _ cs hcs]
  refine (samples env _).bind_zero hq fun aB => ?_
  dsimp only
  refine (samples env _).bind_zero hq fun bB => ?_
  dsimp only
  refine (samples env _).bind_zero hq fun aT => ?_
  dsimp only
  refine (samples env _).bind_zero hq fun bT => ?_
  dsimp only
  refine (send () _).bind_zero hq fun _ => ?_
  dsimp only
  exact hz

theorem toPoint_ok {e : Env F T} {air : Air F Ch} {d : Domain F} {root compositionRoot : Commitment} {z : F × T}
    (h : toPoint e air d root compositionRoot e.tr.init = .ok z) :
    ∃ bcs, air.boundaryConstraints (buildRapChallenges e air (e.tr.append e.tr.init root.val)).1 = .ok bcs ∧
      e.tr.sampleZOod e.ofDigest d.ldeRootsOfUnityCoset d.traceRootsOfUnity
        (beforePoint e air [root] bcs.length compositionRoot) ≠ none := by
  unfold toPoint at h
  simp only [bind_ok', Outcome.bind_eq_ok] at h
  obtain ⟨bcs, h1, h2⟩ := h
  refine ⟨bcs, h1, fun hc => ?_⟩
  change e.tr.sampleZOod _ _ _ _ = none at hc
  unfold beforePoint transcriptRound1 buildRapChallenges at hc
  have h3 : Outcome.ofOptionUnwrap (none : Option (F × T)) = (.ok z : Outcome Empty (F × T)) := by
    rw [← h2]
    exact congrArg _ hc.symm
  cases h3

theorem toPoint_exists {e : Env F T} {air : Air F Ch} {d : Domain F} {root compositionRoot : Commitment}
    {bcs : List (BoundaryConstraint F)}
    (h1 : air.boundaryConstraints (buildRapChallenges e air (e.tr.append e.tr.init root.val)).1 = .ok bcs)
    (h2 : ∀ t, e.tr.sampleZOod e.ofDigest d.ldeRootsOfUnityCoset d.traceRootsOfUnity t ≠ none) :
    ∃ z, toPoint e air d root compositionRoot e.tr.init = .ok z := by
  have h1' : air.boundaryConstraints (air.rapChallenges
    (e.samples air.numRapChallenges (e.tr.append e.tr.init root.val)).1) = .ok bcs := h1
  unfold toPoint
  simp only [bind_ok', h1']
  generalize e.tr.append _ compositionRoot.val = t
  obtain ⟨z, hz⟩ := Option.ne_none_iff_exists'.1 (h2 t)
  exact ⟨z, by rw [hz]; rfl⟩

end Verif.Rep
