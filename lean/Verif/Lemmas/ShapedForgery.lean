import Verif.Lemmas.ForgedProof
import Verif.Lemmas.NoPanic
import Verif.Lemmas.Shape
import Verif.Spec.OpenedWeight

/-!
# Proofs of the prover's shape assembled without a trace
-/

namespace Verif
open Polynomial Spec
variable {F T Ch : Type} [Field F] [DecidableEq F] {env : Env F T}

omit [DecidableEq F] in
theorem map_sub_sum {α : Type} (l : List α) (f f' : α → F) :
    (l.map fun y => f y - f' y).sum = (l.map f).sum - (l.map f').sum := by
  induction l with
  | nil => simp
  | cons x l ih => simp only [List.map_cons, List.sum_cons, ih]; ring

omit [DecidableEq F] in
theorem map_mul_sum {α : Type} (l : List α) (f : α → F) (v : F) :
    (l.map fun y => v * f y).sum = v * (l.map f).sum := by
  induction l with
  | nil => simp
  | cons x l ih => simp only [List.map_cons, List.sum_cons, ih]; ring

omit [DecidableEq F] in
theorem sum_one_column {α : Type} (γ : List α) (f : α → F) (v : F) (s j : Nat) {y : α} (hj : γ[j]? = some y) :
    (((List.range' s γ.length).zip γ).map fun u => (if u.1 = s + j then v else 0) * f u.2).sum = v * f y := by
  induction γ generalizing s j with
  | nil => simp at hj
  | cons x γ ih =>
    rw [List.length_cons, List.range'_succ, List.zip_cons_cons, List.map_cons, List.sum_cons]
    cases j with
    | zero =>
      rw [List.getElem?_cons_zero, Option.some.injEq] at hj
      subst hj
      rw [if_pos (by simp)]
      have : (((List.range' (s + 1) γ.length).zip γ).map fun u => (if u.1 = s + 0 then v else 0) * f u.2).sum = 0 := by
        refine List.sum_eq_zero fun w hw => ?_
        obtain ⟨u, hu, rfl⟩ := List.mem_map.mp hw
        have := (List.of_mem_zip hu).1
        rw [List.mem_range'_1] at this
        rw [if_neg (by omega), zero_mul]
      rw [this, add_zero]
    | succ j =>
      rw [List.getElem?_cons_succ] at hj
      have := ih (s + 1) j hj
      rw [if_neg (by omega), zero_mul, zero_add, ← this]
      simp only [show s + 1 + j = s + (j + 1) by omega]

omit [DecidableEq F] in
/-- The opened values of the trace can be chosen such that the DEEP value is a given one, when the weight of some column
is not zero. -/
theorem deepValue_solve {proof : StarkProof F} {c : Challenges F Ch} (g x target : F) {o : DeepPolynomialOpenings F}
    {cols height : Nat} (hwidth : proof.traceOodFrameEvaluations.rowWidth = cols)
    (hheight : frameHeight proof.traceOodFrameEvaluations = height)
    (hc : c.traceTermCoeffs.length = cols) (hr : ∀ γs ∈ c.traceTermCoeffs, γs.length = height) :
    ∃ values : List F, values.length = cols ∧ ((∃ γs ∈ c.traceTermCoeffs, openedWeight g c.z x γs ≠ 0) →
      deepValue proof c g x { o with ldeTraceEvaluations := values } = target) := by
  by_cases hw : ∃ γs ∈ c.traceTermCoeffs, openedWeight g c.z x γs ≠ 0
  swap
  · exact ⟨List.replicate cols 0, List.length_replicate, fun h => absurd h hw⟩
  obtain ⟨γs, hγ, hne⟩ := hw
  obtain ⟨j, hj⟩ := List.getElem?_of_mem hγ
  have hjc : j < cols := hc ▸ (List.getElem?_eq_some_iff.mp hj).1
  have key : ∀ v : F, deepValue proof c g x { o with ldeTraceEvaluations := (List.replicate cols 0).set j v }
      = v * openedWeight g c.z x γs
        + deepValue proof c g x { o with ldeTraceEvaluations := (List.replicate cols 0).set j 0 } := by
    intro v
    unfold deepValue
    simp only [hwidth, hheight]
    have hcell : ∀ (u : F) i, ((List.replicate cols (0 : F)).set j u).getD i 0 = if i = j then u else 0 := by
      intro u i
      rw [List.getD_eq_getElem?_getD, List.getElem?_set]
      by_cases h : i = j
      · subst h
        simp [hjc]
      · rw [if_neg (Ne.symm h), if_neg h, List.getElem?_replicate]
        split <;> rfl
    simp only [hcell]
    have e : ∀ u : F, (((List.range cols).zip c.traceTermCoeffs).map fun y : Nat × List F =>
        (((List.range height).zip y.2).map fun w : Nat × F => w.2 * (((if y.1 = j then u else 0)
          - frameCell proof.traceOodFrameEvaluations w.1 y.1) / (x - c.z * g ^ w.1))).sum).sum
        = u * openedWeight g c.z x γs - (((List.range cols).zip c.traceTermCoeffs).map fun y : Nat × List F =>
          (((List.range height).zip y.2).map fun w : Nat × F => w.2 *
            (frameCell proof.traceOodFrameEvaluations w.1 y.1 / (x - c.z * g ^ w.1))).sum).sum := by
      intro u
      have h1 := sum_one_column c.traceTermCoeffs (openedWeight g c.z x) u 0 j hj
      rw [hc, ← List.range_eq_range'] at h1
      simp only [zero_add] at h1
      rw [← h1, ← map_sub_sum]
      refine congrArg List.sum (List.map_congr_left fun y hy => ?_)
      rw [openedWeight, hr _ (List.of_mem_zip hy).2, ← map_mul_sum, ← map_sub_sum]
      refine congrArg List.sum (List.map_congr_left fun w _ => ?_)
      ring
    have e1 := e v
    have e0 := e 0
    rw [e1, e0]
    ring
  set rest := deepValue proof c g x { o with ldeTraceEvaluations := (List.replicate cols 0).set j 0 }
  refine ⟨(List.replicate cols 0).set j ((target - rest) / openedWeight g c.z x γs), by simp, fun _ => ?_⟩
  rw [key, div_mul_cancel₀ _ hne, sub_add_cancel]

/-- The coefficients that the verifier draws for the boundary and the transition constraints. -/
def coefficientsAfter (env : Env F T) (nb nt : Nat) (t : T) : List (F × F) × List (F × F) :=
  let alphasB := env.samples nb t
  let betasB := env.samples nb alphasB.2
  let alphasT := env.samples nt betasB.2
  let betasT := env.samples nt alphasT.2
  (alphasB.1.zip betasB.1, alphasT.1.zip betasT.1)

/-- The claimed value of the even part that fits the claimed frame and the claimed value of the odd part. -/
noncomputable def fittingEven (air : Air F Ch) (g : F) (rows : List (List F))
    (cs : List (MvPolynomial (Nat × Nat) F)) (bcs : List (BoundaryConstraint F))
    (coeffs : List (F × F) × List (F × F)) (odd z : F) : F :=
  compositionOf air g (fun j => (rows.getD 0 []).getD j 0) bcs
    (cs.map (MvPolynomial.eval fun ij => (rows.getD ij.1 []).getD ij.2 0)) coeffs.1 coeffs.2 z - z * odd

/-- For any commitments to the trace, any claimed out-of-domain values and any paths there is a proof of the prover's shape that is
accepted unless the opened values have no weight at some queried point. -/
theorem shaped_forgery_at {PI : Type} {new : AirNew F Ch PI} {pi : PI}
    {options : ProofOptions} {air : Air F Ch} {a b : Nat} (S : Setting air a b)
    (hab : a + b < 64)
    (hz2 : ∀ w z : F, env.ta.root (a + b) = some w → ∀ i : Nat,
      w ^ i * (air.context.proofOptions.cosetOffset : F) ≠ z ^ 2)
    (hnew : new (2 ^ a) pi options = .ok air) (hopt : air.context.proofOptions = options)
    {cs : Ch → List (MvPolynomial (Nat × Nat) F)} (hc : ∀ ch, PolynomialConstraints air ch (cs ch))
    (root0 : Commitment) (rest : List Commitment)
    {bcs : List (BoundaryConstraint F)} (hbcs : air.boundaryConstraints (challengesAfter env air root0) = .ok bcs)
    (hcols : ∀ c ∈ bcs, c.col < air.context.traceColumns) {d : Domain F} (hd : Domain.new env.ta air = .ok d)
    (hz : ∀ tree, Merkle.build env.hashes.leafBatch env.hashes.node (List.replicate (2 ^ (a + b)) [(0 : F), 0]) = .ok tree →
      env.tr.sampleZOod env.ofDigest d.ldeRootsOfUnityCoset d.traceRootsOfUnity
        (beforePoint env air (root0 :: rest) bcs.length tree.root) ≠ none)
    (hgrind : ∀ challenge, Grinding.generateNonce env.keccak challenge
      air.context.proofOptions.grindingFactor.toNat ≠ none)
    {rows : List (List F)}
    (hrows : rows.length = air.context.transitionOffsets.length)
    (hr : ∀ r ∈ rows, r.length = air.context.traceColumns) (odd : F)
    {paths : List MerkleProof} (hpaths : paths.length = (root0 :: rest).length)
    (hpath : ∀ p ∈ paths, p.merklePath.length = a + b) :
    ∃ proof c t t6 t7 g tree, proof.ldeTraceMerkleRoots = root0 :: rest ∧
      proof.traceOodFrameEvaluations = ⟨rows.flatten, air.context.traceColumns⟩ ∧
      proof.compositionPolyOddOodEvaluation = odd ∧ proof.nonce < 2 ^ 64 ∧
      (∀ o ∈ proof.deepPolyOpenings, o.ldeTraceMerkleProofs = paths) ∧
      ProofShape proof a b air.context.traceColumns (root0 :: rest).length air.context.transitionOffsets.length
        options.friNumberOfQueries ∧
      step1 env air proof d env.tr.init = .ok (c, t) ∧ env.ta.root a = some g ∧
      env.tr.sampleZOod env.ofDigest d.ldeRootsOfUnityCoset d.traceRootsOfUnity
        (beforePoint env air (root0 :: rest) bcs.length proof.compositionPolyRoot) = some (c.z, t6) ∧
      appendFrame env proof.traceOodFrameEvaluations (env.appendField (env.appendField t6
        proof.compositionPolyEvenOodEvaluation) odd) = .ok t7 ∧
      c.traceTermCoeffs = (sampleRows env air.context.transitionOffsets.length air.context.traceColumns
        (env.sample (env.sample t7).2).2).1 ∧
      Merkle.build env.hashes.leafBatch env.hashes.node (List.replicate (2 ^ (a + b)) [(0 : F), 0]) = .ok tree ∧
      proof.compositionPolyRoot = tree.root ∧
      proof.compositionPolyEvenOodEvaluation = fittingEven air g rows (cs (challengesAfter env air root0)) bcs
        (coefficientsAfter env bcs.length air.context.numTransitionConstraints
          (transcriptRound1 env air (root0 :: rest) env.tr.init)) odd c.z ∧
      ((∀ iota ∈ c.iotas, ∀ x, d.ldeRootsOfUnityCoset[iota]? = some x →
        ∃ γs ∈ c.traceTermCoeffs, openedWeight g c.z x γs ≠ 0) →
        verify env new proof pi options = .ok true) := by
  obtain ⟨g, w, D⟩ := domain_new S.rows S.length S.blowup hd
  set h : F := (air.context.proofOptions.cosetOffset : F) with hh
  have hlen : 0 < rows.length := by rw [hrows]; exact S.fits.offsets_pos
  -- the composition polynomial
  obtain ⟨tree, htree⟩ : ∃ tree, Merkle.build env.hashes.leafBatch env.hashes.node
      (List.replicate (2 ^ (a + b)) [(0 : F), 0]) = .ok tree :=
    ⟨_, Merkle.build_ok _ _ _ (a + b) List.length_replicate⟩
  obtain ⟨⟨z, t6⟩, h6⟩ := Option.ne_none_iff_exists'.mp (hz tree htree)
  have hpoint := h6
  -- the claimed values
  have hev := (hc (challengesAfter env air root0)).computes rows hrows hr
  set evals := (cs (challengesAfter env air root0)).map (MvPolynomial.eval fun ij => (rows.getD ij.1 []).getD ij.2 0)
  obtain ⟨aB, t2, e2⟩ : ∃ aB t2, env.samples bcs.length (transcriptRound1 env air (root0 :: rest) env.tr.init) = (aB, t2) :=
    ⟨_, _, rfl⟩
  obtain ⟨bB, t3, e3⟩ : ∃ bB t3, env.samples bcs.length t2 = (bB, t3) := ⟨_, _, rfl⟩
  obtain ⟨aT, t4, e4⟩ : ∃ aT t4, env.samples air.context.numTransitionConstraints t3 = (aT, t4) := ⟨_, _, rfl⟩
  obtain ⟨bT, t5, e5⟩ : ∃ bT t5, env.samples air.context.numTransitionConstraints t4 = (bT, t5) := ⟨_, _, rfl⟩
  rw [beforePoint, e2, e3, e4, e5] at h6
  obtain ⟨even, heven⟩ : ∃ even, even = compositionOf air g (fun j => (rows.getD 0 []).getD j 0) bcs evals
    (aB.zip bB) (aT.zip bT) z - z * odd := ⟨_, rfl⟩
  obtain ⟨t7, h7⟩ := appendFrame_exists (env := env) S.fits.columns_pos hr
    (env.appendField (env.appendField t6 even) odd)
  obtain ⟨ge, t8, e8⟩ : ∃ ge t8, env.sample t7 = (ge, t8) := ⟨_, _, rfl⟩
  obtain ⟨go, t9, e9⟩ : ∃ go t9, env.sample t8 = (go, t9) := ⟨_, _, rfl⟩
  obtain ⟨γ, t10, e10⟩ : ∃ γ t10, sampleRows env air.context.transitionOffsets.length air.context.traceColumns t9
    = (γ, t10) := ⟨_, _, rfl⟩
  -- the layers
  have hdeg : (0 : F[X]).degree < (2 ^ a : Nat) := by rw [degree_zero]; exact WithBot.bot_lt_coe _
  have hdeg' : (0 : F[X]).degree < (2 ^ (a + b) : Nat) := by rw [degree_zero]; exact WithBot.bot_lt_coe _
  obtain ⟨⟨last, layers, t'⟩, hcommit⟩ := Fri.commitPhase_exists (t := t10) (h := h) S.rows S.extended hab hdeg' D.hw
  obtain ⟨hll, zs, q, ps, tz, e11, -, hf, hq⟩ := Fri.commitPhase_folds (b := b) S.rows hdeg hcommit
  obtain ⟨chal, t12, e12⟩ : ∃ chal t12, env.tr.challenge (env.appendField tz last) = (chal, t12) := ⟨_, _, rfl⟩
  obtain ⟨nonce, hnonce⟩ := Option.ne_none_iff_exists'.mp (hgrind chal)
  obtain ⟨⟨io, t13⟩, e13⟩ := sampleIndices_exists (env := env) (m := iotaMax d.ldeRootOrder)
    (by rw [iotaMax_of_lt (by rw [D.ldeRootOrder]; exact D.small)]; positivity)
    air.context.proofOptions.friNumberOfQueries (env.tr.append t12 (beBytes 8 nonce))
  obtain ⟨ql, hql⟩ := mapOutcome_exists (f := Fri.answerQuery env layers) (l := io) fun iota _ =>
    Fri.answerQuery_exists S.extended hab D.hw hdeg' hll hf iota
  -- the proof
  let base : StarkProof F :=
    { traceLength := 2 ^ a, ldeTraceMerkleRoots := root0 :: rest,
      traceOodFrameEvaluations := ⟨rows.flatten, air.context.traceColumns⟩, compositionPolyRoot := tree.root,
      compositionPolyEvenOodEvaluation := even, compositionPolyOddOodEvaluation := odd,
      friLayersMerkleRoots := layers.map (·.merkleTree.root), friLastValue := last,
      queryList := ql, deepPolyOpenings := [], nonce := nonce }
  have hstep : ∀ openings, step1 env air { base with deepPolyOpenings := openings } d env.tr.init = _ := fun openings =>
    step1_eq (proof := { base with deepPolyOpenings := openings }) (d := d) (t0 := env.tr.init) rfl rfl rfl hbcs e2 e3
      e4 e5 h6 h7 e8 e9 e10 e11 e12 e13
  set c : Challenges F Ch := ⟨z, aB.zip bB, aT.zip bT, γ, ge, go, zs, io, challengesAfter env air root0,
    Grinding.leadingZerosOf env.keccak chal nonce⟩ with hcdef
  obtain ⟨hi1, hi2, hi3, hi4, hi5, hi6⟩ := step1_inv (hstep [])
  have hiota : ∀ iota ∈ io, iota < 2 ^ (a + b) := fun iota hi => by rw [← D.ldeRootOrder]; exact hi6 iota hi
  -- the openings
  have hopen : ∀ iota : Nat, ∃ o : DeepPolynomialOpenings F, (iota < 2 ^ (a + b) →
      o.ldeCompositionPolyProof.merklePath.length = a + b ∧ Merkle.verify env.hashes.leafBatch env.hashes.node
        o.ldeCompositionPolyProof tree.root iota [o.ldeCompositionPolyEvenEvaluation, o.ldeCompositionPolyOddEvaluation]
          = true) ∧ o.ldeTraceMerkleProofs = paths ∧ o.ldeTraceEvaluations.length = air.context.traceColumns ∧
      ((∃ γs ∈ γ, openedWeight g z (w ^ iota * h) γs ≠ 0) → deepValue base c g (w ^ iota * h) o = 0) := by
    intro iota
    obtain ⟨path, hp⟩ : ∃ path : MerkleProof, iota < 2 ^ (a + b) → path.merklePath.length = a + b ∧
        Merkle.verify env.hashes.leafBatch env.hashes.node path tree.root iota [(0 : F), 0] = true := by
      by_cases hi : iota < 2 ^ (a + b)
      · obtain ⟨path, h1, h2⟩ := Merkle.getProof_ok _ _ _ (a + b) List.length_replicate tree htree iota hi
        exact ⟨path, fun _ => ⟨path_length List.length_replicate htree h1, h2 iota _ (Nat.mod_eq_of_lt hi)
          (by rw [List.getElem?_replicate, if_pos hi])⟩⟩
      · exact ⟨⟨[]⟩, fun h => absurd h hi⟩
    obtain ⟨values, h1, h2⟩ := deepValue_solve (proof := base) (c := c) g (w ^ iota * h) 0
      (o := { ldeCompositionPolyProof := path, ldeCompositionPolyEvenEvaluation := 0,
              ldeCompositionPolyOddEvaluation := 0, ldeTraceMerkleProofs := paths, ldeTraceEvaluations := [] })
      (cols := air.context.traceColumns) (height := air.context.transitionOffsets.length) rfl (by
        show rows.flatten.length / air.context.traceColumns = _
        rw [length_flatten_const _ _ hr, Nat.mul_div_cancel _ S.fits.columns_pos, hrows]) hi3 hi4
    exact ⟨_, hp, rfl, h1, h2⟩
  choose opening ho1 ho2 ho3 ho4 using hopen
  set proof : StarkProof F := { base with deepPolyOpenings := io.map opening } with hproof
  have hqlen : ql.length = options.friNumberOfQueries := by
    rw [(mapOutcome_mem hql).1, ← hopt]
    exact hi5
  have hshape : ∀ q ∈ ql, q.layersEvaluations.length = a ∧ q.layersEvaluationsSym.length = a ∧
      q.layersAuthPaths.map (·.merklePath.length) = (List.range a).map (fun k => a + b - k) ∧
      q.layersAuthPathsSym.map (·.merklePath.length) = (List.range a).map (fun k => a + b - k) := by
    intro q' hq'
    obtain ⟨i, hi⟩ := List.getElem?_of_mem hq'
    obtain ⟨hlt, rfl⟩ := List.getElem?_eq_some_iff.mp hi
    have hi' : i < io.length := by rw [← (mapOutcome_mem hql).1]; exact hlt
    exact answer_shape hab S.rows D.hw hdeg hll hf ((mapOutcome_mem hql).2 i hi' hlt)
  have hnonce' := (Props.C52_smallest_nonce_partial _ _ _ _).mp hnonce
  refine ⟨proof, c, t13, t6, t7, g, tree, rfl, rfl, rfl, hnonce'.1.trans_le (by norm_num), ?_, ?_, hstep _, D.hg, hpoint, h7,
    by rw [e8, e9, e10], htree, rfl, by
      simp only [coefficientsAfter, e2, e3, e4, e5]
      exact heven, ?_⟩
  · intro o ho
    obtain ⟨iota, -, rfl⟩ := List.mem_map.mp ho
    exact ho2 iota
  · refine ⟨rfl, rfl, rfl, ?_, by simp [hproof, base, hll], hqlen, ?_, hshape, ?_⟩
    · show rows.flatten.length = _
      rw [length_flatten_const _ _ hr, hrows]
    · show (io.map opening).length = _
      rw [List.length_map, ← hopt]
      exact hi5
    · intro o ho
      obtain ⟨iota, hi, rfl⟩ := List.mem_map.mp ho
      exact ⟨(ho1 iota (hiota iota hi)).1, by rw [ho2, hpaths], by rw [ho2]; exact hpath, ho3 iota⟩
  intro hweight
  have hgr : env.ta.getRoot d.rootOrder = (.ok g : Outcome Empty F) := by
    rw [D.rootOrder]
    exact getRoot_ok.mpr D.hg
  rw [verify_of_steps hd hopt hnew (hstep (io.map opening)) ?_ ?_ ?_ ?_]
  · obtain ⟨r, hr4⟩ := step4_exists (env := env) (air := air) (c := c) (proof := proof) (m := a + b) D S.fits.aux_le S.fits.columns_pos hi6 hi1
      (fun i _ => hz2 w _ D.hw i) ⟨by simp [hproof, base], rfl, by
        show rows.flatten.length = _
        rw [length_flatten_const _ _ hr, hrows], by simp [hproof, base, hll]; omega, fun q hq h0 => by
          have := (hshape q hq).1
          rw [h0] at this
          have := S.rows
          simp at *
          omega, fun o ho => by
          obtain ⟨iota, -, rfl⟩ := List.mem_map.mp ho
          exact (ho3 iota).ge⟩ (by
        show io.length ≤ ql.length
        rw [(mapOutcome_mem hql).1])
    refine hr4.trans (congrArg _ ((step4_value hgr hr4).mpr fun i iota o x hi ho hx => ?_))
    have hmem := List.mem_of_getElem? hi
    obtain rfl : opening iota = o := by
      have ho' : (io.map opening)[i]? = some o := ho
      rw [List.getElem?_map, show io[i]? = some iota from hi] at ho'
      exact Option.some.inj ho'
    obtain rfl : w ^ iota * h = x := Option.some.inj ((D.lde_getElem? (hiota iota hmem)).symm.trans hx)
    obtain ⟨q', hq1, hq2⟩ := mapOutcome_getElem? hql (show io[i]? = some iota from hi)
    refine ⟨q', hq1, (ho1 iota (hiota iota hmem)).2, ?_⟩
    rw [(Fri.verifyQuery_ok (proof := proof) (domain := d) S.rows S.extended hab S.offset D.hw hdeg hll hf iota hq2 D.ldeRootOrder rfl (hq _)).1,
      eval_zero]
    exact congrArg some (ho4 iota (hweight iota hmem _ hx)).symm
  · rw [Props.C52_check_iff]
    exact hnonce'.2.1
  · exact (hopt ▸ hqlen).ge
  · rw [step2_eq D S.fits S.length ((D.notMem_trace_iff _).mp hi2) (boundary := bcs) (row0 := rows.getD 0 []) (evals := evals)]
    · simp only [base, heven]
      rw [sub_add_cancel, decide_eq_true rfl]
    · exact hbcs
    · exact ExampleAirs.getRow_flatten hr hlen
    · have h0 : (rows.getD 0 []).length = air.context.traceColumns := by
        rw [List.getD_eq_getElem _ _ hlen]
        exact hr _ (List.getElem_mem _)
      intro x hx
      rw [h0]
      exact hcols x hx
    · exact hev
  · exact step3_ok D S.extended S.offset hdeg hll hf rfl hq hql hiota

/-- For any commitments to the trace, any claimed out-of-domain values and any paths there is a proof of the prover's shape that is
accepted unless the opened values have no weight at some queried point. -/
theorem shaped_forgery {PI : Type} {new : AirNew F Ch PI} {pi : PI}
    {options : ProofOptions} {air : Air F Ch} {a b : Nat} (S : Setting air a b)
    (hab : a + b < 64) (had : a + b ≤ env.ta.adicity)
    (hz2 : ∀ w z : F, env.ta.root (a + b) = some w → ∀ i : Nat,
      w ^ i * (air.context.proofOptions.cosetOffset : F) ≠ z ^ 2)
    (hnew : new (2 ^ a) pi options = .ok air) (hopt : air.context.proofOptions = options)
    (hc : ∀ ch, ∃ cs, PolynomialConstraints air ch cs)
    (root0 : Commitment) (rest : List Commitment)
    (hb : ∃ bcs, air.boundaryConstraints (challengesAfter env air root0) = .ok bcs ∧
      ∀ c ∈ bcs, c.col < air.context.traceColumns)
    (hz : SamplingEnds env air)
    (hgrind : ∀ challenge, Grinding.generateNonce env.keccak challenge
      air.context.proofOptions.grindingFactor.toNat ≠ none)
    {rows : List (List F)}
    (hrows : rows.length = air.context.transitionOffsets.length)
    (hr : ∀ r ∈ rows, r.length = air.context.traceColumns) (odd : F)
    {paths : List MerkleProof} (hpaths : paths.length = (root0 :: rest).length)
    (hpath : ∀ p ∈ paths, p.merklePath.length = a + b) :
    ∃ proof d c t g, proof.ldeTraceMerkleRoots = root0 :: rest ∧
      proof.traceOodFrameEvaluations = ⟨rows.flatten, air.context.traceColumns⟩ ∧
      proof.compositionPolyOddOodEvaluation = odd ∧ proof.nonce < 2 ^ 64 ∧
      (∀ o ∈ proof.deepPolyOpenings, o.ldeTraceMerkleProofs = paths) ∧
      ProofShape proof a b air.context.traceColumns (root0 :: rest).length air.context.transitionOffsets.length
        options.friNumberOfQueries ∧
      Domain.new env.ta air = .ok d ∧ step1 env air proof d env.tr.init = .ok (c, t) ∧ env.ta.root a = some g ∧
      ((∀ iota ∈ c.iotas, ∀ x, d.ldeRootsOfUnityCoset[iota]? = some x →
        ∃ γs ∈ c.traceTermCoeffs, openedWeight g c.z x γs ≠ 0) →
        verify env new proof pi options = .ok true) := by
  obtain ⟨d, hd⟩ := domain_exists S.rows S.length S.blowup hab had
  obtain ⟨bcs, hbcs, hcols⟩ := hb
  choose cs hc using hc
  obtain ⟨proof, c, t, t6, t7, g, -, h1, h2, h3, h4, h5, h6, h7, h8, -, -, -, -, -, -, h9⟩ := shaped_forgery_at S hab hz2 hnew hopt hc
    root0 rest hbcs hcols hd (fun _ _ => hz _ _ hd) hgrind hrows hr odd hpaths hpath
  exact ⟨proof, d, c, t, g, h1, h2, h3, h4, h5, h6, hd, h7, h8, h9⟩

end Verif
