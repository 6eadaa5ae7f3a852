import Verif.Props.Binding
import Verif.Props.FriSound
import Verif.Props.Verdict

/-!
# C86: altering an accepted proof
-/

namespace Verif.Props
open Verif.Spec
open Verif.Merkle hiding verify

variable {F T Ch : Type} [Field F] [DecidableEq F] {env : Env F T}

/-- Two paths of the same length from hashes to the same hash are the same and start from the same hash, or combine
different pairs to the same hash. -/
theorem climb_unique (node : Commitment → Commitment → Commitment) (path path' : List Commitment)
    (hlen : path.length = path'.length) (index : Nat) (x x' : Commitment)
    (h : climb node path index x = climb node path' index x') :
    (x = x' ∧ path = path') ∨ ∃ k p q, combinedAt node path index x k = some p ∧
      combinedAt node path' index x' k = some q ∧ p ≠ q ∧ node p.1 p.2 = node q.1 q.2 := by
  by_cases hx : x = x'
  · subst hx
    induction path generalizing path' index x with
    | nil =>
      obtain rfl := List.length_eq_zero_iff.1 hlen.symm
      exact Or.inl ⟨rfl, rfl⟩
    | cons s path ih =>
      obtain ⟨s', rest, rfl⟩ : ∃ s' rest, path' = s' :: rest := by
        cases path' with
        | nil => simp at hlen
        | cons a l => exact ⟨a, l, rfl⟩
      simp only [climb] at h
      by_cases hn : (if index % 2 = 0 then node x s else node s x) =
          (if index % 2 = 0 then node x s' else node s' x)
      · by_cases hs : s = s'
        · subst hs
          rcases ih rest (by simpa using hlen) (index / 2) _ h with ⟨-, rfl⟩ | ⟨k, p, q, h1, h2, h3⟩
          · exact Or.inl ⟨rfl, rfl⟩
          · exact Or.inr ⟨k + 1, p, q, h1, h2, h3⟩
        · refine Or.inr ⟨0, _, _, rfl, rfl, ?_, ?_⟩
          · split
            · intro he; exact hs (Prod.mk.inj he).2
            · intro he; exact hs (Prod.mk.inj he).1
          · by_cases h0 : index % 2 = 0
            · simpa [h0] using hn
            · simpa [h0] using hn
      · obtain ⟨k, p, q, h1, h2, h3⟩ := climb_collide node path rest (by simpa using hlen) (index / 2) _ _ hn h
        exact Or.inr ⟨k + 1, p, q, h1, h2, h3⟩
  · exact Or.inr (climb_collide node path path' hlen index x x' hx h)

/-- Two openings of one root at one index, with paths of the same length, are the same opening or exhibit a
collision. -/
theorem C86_opening_unique {V : Type} (leaf : V → Commitment)
    (node : Commitment → Commitment → Commitment) (root : Commitment) (index : Nat) (proof proof' : MerkleProof)
    (v v' : V) (hlen : proof.merklePath.length = proof'.merklePath.length)
    (h : Merkle.verify leaf node proof root index v = true) (h' : Merkle.verify leaf node proof' root index v' = true) :
    (v = v' ∧ proof = proof') ∨ Collide leaf node index proof.merklePath v proof'.merklePath v' := by
  unfold Merkle.verify at h h'
  rw [decide_eq_true_iff] at h h'
  rcases climb_unique node _ _ hlen index _ _ (h.symm.trans h') with ⟨h1, h2⟩ | h1
  · by_cases hv : v = v'
    · left
      cases proof
      cases proof'
      exact ⟨hv, congrArg MerkleProof.mk h2⟩
    · exact Or.inr (Or.inl ⟨hv, h1⟩)
  · exact Or.inr (Or.inr h1)

open Examples in
/-- The hypotheses of `C86_opening_unique`: two openings of one root with the same value and different paths, which
exhibit a collision of the toy hash. -/
example : ∃ (proof proof' : MerkleProof) (root : Commitment) (v : List (ZMod 17)), proof ≠ proof' ∧
    proof.merklePath.length = proof'.merklePath.length ∧
    Merkle.verify env17.hashes.leafBatch env17.hashes.node proof root 0 v = true ∧
    Merkle.verify env17.hashes.leafBatch env17.hashes.node proof' root 0 v = true :=
  ⟨⟨[digest 3]⟩, ⟨[digest 131]⟩, digest 8, [2], by decide, rfl, by decide +kernel, by decide +kernel⟩

/-- The challenges of the composition polynomial depend only on the commitments to the trace and to the composition
polynomial. -/
theorem step1_composition {air : Air F Ch} {p p' : StarkProof F} {d : Domain F} {t t1 t2 : T} {c c' : Challenges F Ch}
    (hr : p'.ldeTraceMerkleRoots = p.ldeTraceMerkleRoots) (hc : p'.compositionPolyRoot = p.compositionPolyRoot)
    (h : step1 env air p d t = .ok (c, t1)) (h' : step1 env air p' d t = .ok (c', t2)) :
    c'.z = c.z ∧ c'.rapChallenges = c.rapChallenges ∧ c'.boundaryCoeffs = c.boundaryCoeffs ∧
      c'.transitionCoeffs = c.transitionCoeffs := by
  unfold step1 at h h'
  rw [hr, hc] at h'
  simp only [Outcome.bind_eq_ok, Outcome.pure_eq, Outcome.ok.injEq, Prod.mk.injEq] at h h'
  obtain ⟨root0, e1, boundary, e2, z, e3, -, -, -, -, rfl, -⟩ := h
  obtain ⟨root0', e1', boundary', e2', z', e3', -, -, -, -, rfl, -⟩ := h'
  obtain rfl := Outcome.ok.inj (e1.symm.trans e1')
  obtain rfl := Outcome.ok.inj (e2.symm.trans e2')
  obtain rfl := Outcome.ok.inj (e3.symm.trans e3')
  exact ⟨rfl, rfl, rfl, rfl⟩

/-- What C86 keeps for the claimed values: if two accepted proofs agree in the trace length, in the commitments to the
trace and to the composition polynomial and in the claimed values of the trace, then the values of the composition
polynomial that they claim at the out-of-domain point agree, whatever they contain otherwise. Missing: the two halves
are not determined one by one before the queries. -/
theorem C86_claimed_values_partial {PI : Type} {new : AirNew F Ch PI} {pi : PI} {options : ProofOptions}
    {p p' : StarkProof F} {air : Air F Ch} (hair : new p.traceLength pi options = .ok air)
    {a b : Nat} (S : Setting air a b) (h : verify env new p pi options = .ok true)
    (h' : verify env new p' pi options = .ok true) (hl : p'.traceLength = p.traceLength)
    (hr : p'.ldeTraceMerkleRoots = p.ldeTraceMerkleRoots) (hc : p'.compositionPolyRoot = p.compositionPolyRoot)
    (hf : p'.traceOodFrameEvaluations = p.traceOodFrameEvaluations) :
    ∃ d c t, Domain.new env.ta air = .ok d ∧ step1 env air p d env.tr.init = .ok (c, t) ∧
      p'.compositionPolyEvenOodEvaluation + c.z * p'.compositionPolyOddOodEvaluation
        = p.compositionPolyEvenOodEvaluation + c.z * p.compositionPolyOddOodEvaluation := by
  obtain ⟨d, c, t, g, w, h1, h2, h3, -, -, -, -, -, ⟨bo, ev, h4, h5, h6⟩, -⟩ := C45_accepted_checks_partial hair S h
  obtain ⟨d', c', t', g', w', h1', h2', h3', -, -, -, -, -, ⟨bo', ev', h4', h5', h6'⟩, -⟩ :=
    C45_accepted_checks_partial (by rw [hl]; exact hair) S h'
  obtain rfl := Outcome.ok.inj (h1.symm.trans h1')
  obtain rfl := Option.some.inj (h3.symm.trans h3')
  obtain ⟨e1, e2, e3, e4⟩ := step1_composition hr hc h2 h2'
  rw [e2] at h4' h5'
  rw [hf] at h5'
  obtain rfl := Outcome.ok.inj (h4.symm.trans h4')
  obtain rfl := Outcome.ok.inj (h5.symm.trans h5')
  rw [e1, e3, e4, hf] at h6'
  exact ⟨d, c, t, h1, h2, h6'.trans h6.symm⟩

/-- What C86 keeps for a change of one of the claimed values of the composition polynomial in an accepted proof: the
changed proof is not accepted, unless the odd half was changed and the out-of-domain point is zero. -/
theorem C86_composition_value_partial {PI : Type} {new : AirNew F Ch PI} {pi : PI} {options : ProofOptions}
    {p : StarkProof F} {air : Air F Ch} (hair : new p.traceLength pi options = .ok air)
    {a b : Nat} (S : Setting air a b) (h : verify env new p pi options = .ok true) (v : F) :
    (v ≠ p.compositionPolyEvenOodEvaluation →
      verify env new { p with compositionPolyEvenOodEvaluation := v } pi options ≠ .ok true) ∧
    (v ≠ p.compositionPolyOddOodEvaluation →
      (∀ d c t, Domain.new env.ta air = .ok d → step1 env air p d env.tr.init = .ok (c, t) → c.z ≠ 0) →
      verify env new { p with compositionPolyOddOodEvaluation := v } pi options ≠ .ok true) := by
  constructor
  · intro hv h'
    obtain ⟨d, c, t, -, -, e⟩ := C86_claimed_values_partial hair S h h' rfl rfl rfl rfl
    exact hv (add_right_cancel e)
  · intro hv hz h'
    obtain ⟨d, c, t, h1, h2, e⟩ := C86_claimed_values_partial hair S h h' rfl rfl rfl rfl
    exact hv (mul_left_cancel₀ (hz d c t h1 h2) (add_left_cancel e))

/-- What C86 keeps for the answers to the queries: two accepted proofs that agree in everything that is sent before the
queries are drawn have the same openings of the composition polynomial and of the FRI layers, values and paths, at the
queried positions, or exhibit a collision. Missing: the lengths of the paths, which the verifier does not check
(`C66_path_length_unchecked`), the openings of the trace (`C86_trace_values_changed`, C48), and the answers that are not
looked at (`C45_unused_data_accepted`). -/
theorem C86_answers_partial {PI : Type} {new : AirNew F Ch PI} {pi : PI} {options : ProofOptions}
    {p : StarkProof F} {air : Air F Ch} (hair : new p.traceLength pi options = .ok air)
    {a b : Nat} (S : Setting air a b) (h : verify env new p pi options = .ok true)
    {openings : List (DeepPolynomialOpenings F)} {queries : List (FriDecommitment F)}
    (h' : verify env new { p with deepPolyOpenings := openings, queryList := queries } pi options = .ok true) :
    ∃ d c t, Domain.new env.ta air = .ok d ∧ step1 env air p d env.tr.init = .ok (c, t) ∧
      (∀ (i : Nat) iota o o', c.iotas[i]? = some iota → p.deepPolyOpenings[i]? = some o → openings[i]? = some o' →
        o.ldeCompositionPolyProof.merklePath.length = o'.ldeCompositionPolyProof.merklePath.length →
        (o.ldeCompositionPolyEvenEvaluation = o'.ldeCompositionPolyEvenEvaluation ∧
          o.ldeCompositionPolyOddEvaluation = o'.ldeCompositionPolyOddEvaluation ∧
          o.ldeCompositionPolyProof = o'.ldeCompositionPolyProof) ∨
        Collide env.hashes.leafBatch env.hashes.node iota o.ldeCompositionPolyProof.merklePath
          [o.ldeCompositionPolyEvenEvaluation, o.ldeCompositionPolyOddEvaluation] o'.ldeCompositionPolyProof.merklePath
          [o'.ldeCompositionPolyEvenEvaluation, o'.ldeCompositionPolyOddEvaluation]) ∧
      ∀ (i j : Nat) iota q q' path v pathSym vSym path' v' pathSym' vSym', c.iotas[i]? = some iota →
        p.queryList[i]? = some q → queries[i]? = some q' → j < p.friLayersMerkleRoots.length →
        q.layersAuthPaths[j]? = some path → q.layersEvaluations[j]? = some v →
        q.layersAuthPathsSym[j]? = some pathSym → q.layersEvaluationsSym[j]? = some vSym →
        q'.layersAuthPaths[j]? = some path' → q'.layersEvaluations[j]? = some v' →
        q'.layersAuthPathsSym[j]? = some pathSym' → q'.layersEvaluationsSym[j]? = some vSym' →
        (path.merklePath.length = path'.merklePath.length → (v = v' ∧ path = path') ∨
          Collide env.hashes.leaf env.hashes.node iota path.merklePath v path'.merklePath v') ∧
        (pathSym.merklePath.length = pathSym'.merklePath.length → (vSym = vSym' ∧ pathSym = pathSym') ∨
          Collide env.hashes.leaf env.hashes.node ((iota + 2 ^ (a + b - j) / 2) % 2 ^ (a + b - j)) pathSym.merklePath
            vSym pathSym'.merklePath vSym') := by
  obtain ⟨d, c, t, g, w, h1, h2, h3, -, -, -, -, -, -, h7, h8⟩ := C45_accepted_checks_partial hair S h
  obtain ⟨d', c', t', g', w', h1', h2', h3', -, -, -, -, -, -, h7', h8'⟩ :=
    C45_accepted_checks_partial (proof := { p with deepPolyOpenings := openings, queryList := queries }) hair S h'
  obtain rfl := Outcome.ok.inj (h1.symm.trans h1')
  obtain ⟨rfl, -⟩ := Prod.mk.inj (Outcome.ok.inj (h2.symm.trans h2'))
  refine ⟨d, c, t, h1, h2, fun i iota o o' hi ho ho' hlen => ?_, ?_⟩
  · obtain ⟨q, -, O⟩ := h8 i iota o hi ho
    obtain ⟨q', -, O'⟩ := h8' i iota o' hi ho'
    rcases C86_opening_unique _ _ _ _ _ _ _ _ hlen O.opened O'.opened with ⟨e1, e2⟩ | e
    · simp only [List.cons.injEq, and_true] at e1
      exact Or.inl ⟨e1.1, e1.2, e2⟩
    · exact Or.inr e
  · intro i j iota q q' path v pathSym vSym path' v' pathSym' vSym' hi hq hq' hj e1 e2 e3 e4 e1' e2' e3' e4'
    obtain ⟨ζ, -, L⟩ := (h7 i q iota hq hi).2 j _ path v pathSym vSym (List.getElem?_eq_getElem hj) e1 e2 e3 e4
    obtain ⟨ζ', -, L'⟩ := (h7' i q' iota hq' hi).2 j _ path' v' pathSym' vSym' (List.getElem?_eq_getElem hj)
      e1' e2' e3' e4'
    exact ⟨fun hlen => C86_opening_unique _ _ _ _ _ _ _ _ hlen L.opened L'.opened,
      fun hlen => C86_opening_unique _ _ _ _ _ _ _ _ hlen L.openedSym L'.openedSym⟩

/-- A change of two trace values that leaves the DEEP value unchanged. -/
theorem deepValue_change {proof : StarkProof F} {c : Challenges F Ch} (g x : F) {o : DeepPolynomialOpenings F}
    (hw : 2 ≤ proof.traceOodFrameEvaluations.rowWidth) (hc : 2 ≤ c.traceTermCoeffs.length)
    (ho : 2 ≤ o.ldeTraceEvaluations.length) :
    ∃ values : List F, values.length = o.ldeTraceEvaluations.length ∧ values ≠ o.ldeTraceEvaluations ∧
      deepValue proof c g x { o with ldeTraceEvaluations := values } = deepValue proof c g x o := by
  obtain ⟨t0, t1, ts, ht⟩ : ∃ t0 t1 ts, o.ldeTraceEvaluations = t0 :: t1 :: ts := by
    match o.ldeTraceEvaluations, ho with
    | t0 :: t1 :: ts, _ => exact ⟨t0, t1, ts, rfl⟩
  obtain ⟨γ0, γ1, γs, hγ⟩ : ∃ γ0 γ1 γs, c.traceTermCoeffs = γ0 :: γ1 :: γs := by
    match c.traceTermCoeffs, hc with
    | γ0 :: γ1 :: γs, _ => exact ⟨γ0, γ1, γs, rfl⟩
  obtain ⟨n, hn⟩ : ∃ n, proof.traceOodFrameEvaluations.rowWidth = n + 2 := ⟨_, (Nat.sub_add_cancel hw).symm⟩
  set k := frameHeight proof.traceOodFrameEvaluations with hk
  let K (γ : List F) : F := (((List.range k).zip γ).map fun y => y.2 / (x - c.z * g ^ y.1)).sum
  have hsum : ∀ (γ : List F) (j : Nat) (u δ : F),
      (((List.range k).zip γ).map fun y => y.2 * ((u + δ - frameCell proof.traceOodFrameEvaluations y.1 j)
          / (x - c.z * g ^ y.1))).sum
        = (((List.range k).zip γ).map fun y => y.2 * ((u - frameCell proof.traceOodFrameEvaluations y.1 j)
          / (x - c.z * g ^ y.1))).sum + δ * K γ := by
    intro γ j u δ
    simp only [K]
    rw [← List.sum_map_mul_left, ← List.sum_map_add]
    congr 1
    refine List.map_congr_left fun y _ => ?_
    ring
  have key : ∀ δ0 δ1 : F, δ0 * K γ0 + δ1 * K γ1 = 0 →
      deepValue proof c g x { o with ldeTraceEvaluations := (t0 + δ0) :: (t1 + δ1) :: ts }
        = deepValue proof c g x o := by
    intro δ0 δ1 hδ
    unfold deepValue
    rw [hn, hγ, ht, List.range_succ_eq_map, List.range_succ_eq_map]
    simp only [List.map_cons, List.map_map, List.zip_cons_cons, List.sum_cons, List.getD_cons_zero, List.getD_cons_succ,
      Nat.succ_eq_add_one, Nat.zero_add, ← hk, hsum]
    have hrest : ∀ u0 u1 u0' u1' : F, (((List.range n).map ((fun x => x + 1) ∘ fun x => x + 1)).zip γs).map (fun y =>
          (((List.range k).zip y.2).map fun z => z.2 * (((u0 :: u1 :: ts).getD y.1 0
            - frameCell proof.traceOodFrameEvaluations z.1 y.1) / (x - c.z * g ^ z.1))).sum)
        = (((List.range n).map ((fun x => x + 1) ∘ fun x => x + 1)).zip γs).map (fun y =>
          (((List.range k).zip y.2).map fun z => z.2 * (((u0' :: u1' :: ts).getD y.1 0
            - frameCell proof.traceOodFrameEvaluations z.1 y.1) / (x - c.z * g ^ z.1))).sum) := by
      intro u0 u1 u0' u1'
      refine List.map_congr_left fun y hy => ?_
      obtain ⟨m, -, hm⟩ := List.mem_map.mp (List.of_mem_zip hy).1
      rw [← hm]
      rfl
    rw [hrest (t0 + δ0) (t1 + δ1) t0 t1]
    linear_combination hδ
  by_cases h0 : K γ0 = 0
  · refine ⟨(t0 + 1) :: (t1 + 0) :: ts, by rw [ht]; rfl, ?_, key 1 0 (by rw [h0]; ring)⟩
    rw [ht]
    simp
  · refine ⟨(t0 + -K γ1) :: (t1 + K γ0) :: ts, by rw [ht]; rfl, ?_, key _ _ (by ring)⟩
    rw [ht]
    simp [h0]

/-- C86 is false of the openings of the trace: if the trace has two columns, then in every accepted proof of the shape
the prover makes, the trace values of every opening can be replaced by others, and nothing else, such that the proof is
still accepted. -/
theorem C86_trace_values_changed {PI : Type} {new : AirNew F Ch PI} {pi : PI} {options : ProofOptions}
    {p : StarkProof F} {air : Air F Ch} (hair : new p.traceLength pi options = .ok air)
    (hopt : air.context.proofOptions = options) {a b : Nat} (S : Setting air a b) (W : WellFormed air p (a + b)) (hcols : 2 ≤ air.context.traceColumns)
    (h : verify env new p pi options = .ok true) {i : Nat} {o : DeepPolynomialOpenings F}
    (ho : p.deepPolyOpenings[i]? = some o) :
    ∃ values : List F, values.length = o.ldeTraceEvaluations.length ∧ values ≠ o.ldeTraceEvaluations ∧
      verify env new { p with deepPolyOpenings :=
        p.deepPolyOpenings.set i { o with ldeTraceEvaluations := values } } pi options = .ok true := by
  obtain ⟨hq, air', d, c, t, h1, h2, h3, hg, h4, h5, h6⟩ := verify_true h
  obtain rfl : air = air' := Outcome.ok.inj (hair.symm.trans h1)
  obtain ⟨g, w, D⟩ := domain_new S.rows S.length S.blowup h2
  obtain ⟨hz1, hz2, hγ, -, hi1, hi2⟩ := step1_inv h3
  have hiota : ∀ iota ∈ c.iotas, d.ldeRootsOfUnityCoset[iota]?
      = some (w ^ iota * (air.context.proofOptions.cosetOffset : F)) := fun iota hi =>
    D.lde_getElem? (by rw [← D.ldeRootOrder]; exact hi2 iota hi)
  have hgr : env.ta.getRoot d.rootOrder = (.ok g : Outcome Empty F) := by
    rw [D.rootOrder]
    exact getRoot_ok.mpr D.hg
  have hlt := (List.getElem?_eq_some_iff.mp ho).1
  obtain ⟨values, hv1, hv2, hv3⟩ := deepValue_change (proof := p) (c := c) g
    (w ^ c.iotas.getD i 0 * (air.context.proofOptions.cosetOffset : F)) (o := o) (by rw [W.width]; exact hcols)
    (by rw [hγ]; exact hcols) (hcols.trans (W.openings o (List.mem_of_getElem? ho)))
  refine ⟨values, hv1, hv2, ?_⟩
  set o' : DeepPolynomialOpenings F := { o with ldeTraceEvaluations := values } with ho'
  set p' : StarkProof F := { p with deepPolyOpenings := p.deepPolyOpenings.set i o' } with hp'
  have W' : WellFormed air p' (a + b) := by
    refine ⟨W.roots, W.width, W.frame, W.layers, W.queries, fun y hy => ?_⟩
    rcases List.mem_or_eq_of_mem_set hy with hy | rfl
    · exact W.openings y hy
    · exact (W.openings o (List.mem_of_getElem? ho)).trans hv1.ge
  have hlen : c.iotas.length ≤ p.queryList.length := by
    rw [hi1, hopt]
    exact hq
  have hsq : ∀ j ∈ c.iotas, w ^ j * (air.context.proofOptions.cosetOffset : F) ≠ c.z ^ 2 := by
    intro j hj he
    unfold step4 at h6
    rw [hgr, Outcome.bind_ok] at h6
    simp only [Outcome.bind_eq_ok] at h6
    obtain ⟨points, hpt, inv, hinv, -⟩ := h6
    obtain ⟨hne, -⟩ := batchInverse_eq_ok.mp hinv
    obtain ⟨m, hm⟩ := List.getElem?_of_mem hj
    obtain ⟨y, hy1, hy2⟩ := mapOutcome_getElem? hpt hm
    rw [index_ok (hiota j hj), Outcome.bind_ok, Outcome.pure_eq, Outcome.ok.injEq] at hy2
    exact hne y (List.mem_of_getElem? hy1) (by rw [← hy2, he, sub_self])
  obtain ⟨r, hr⟩ := step4_exists (env := env) (air := air) (proof := p') D S.fits.aux_le S.fits.columns_pos hi2 hz1
    hsq W' hlen
  have hrt : r = true := by
    refine (step4_value hgr hr).mpr fun j iota y x hj hy hx => ?_
    by_cases hij : i = j
    · subst hij
      obtain rfl : o' = y := by
        have : p'.deepPolyOpenings[i]? = some o' := by
          simp only [hp']
          rw [List.getElem?_set_self hlt]
        exact Option.some.inj (this.symm.trans hy)
      obtain ⟨q, hq, O⟩ := step4_true hgr h6 i iota o x hj ho hx
      refine ⟨q, hq, O.opened, ?_⟩
      rw [hiota iota (List.mem_of_getElem? hj)] at hx
      obtain rfl := Option.some.inj hx
      rw [List.getD_eq_getElem?_getD, hj, Option.getD_some] at hv3
      rw [O.value]
      exact congrArg some hv3.symm
    · have : p.deepPolyOpenings[j]? = some y := by
        rw [← hy]
        simp only [hp']
        rw [List.getElem?_set_ne hij]
      obtain ⟨q, hq, O⟩ := step4_true hgr h6 j iota y x hj this hx
      exact ⟨q, hq, O.opened, O.value⟩
  subst hrt
  have e3 : step1 env air p' d env.tr.init = .ok (c, t) := h3
  have e4 : step2 air p' d c = .ok true := h4
  have e5 : step3 env p' d c = .ok true := h5
  unfold verify
  rw [if_neg (Nat.not_lt.mpr hq : ¬ p'.queryList.length < options.friNumberOfQueries)]
  rw [show new p'.traceLength pi options = .ok air from hair]
  simp only [Outcome.bind_ok, h2, e3, e4, e5, hr]
  rw [if_neg (by omega)]
  rfl

open Examples ExampleAirs in
/-- The out-of-domain point of the proofs for four rows of the Fibonacci sequence is eight. -/
theorem point17 {proof : StarkProof (ZMod 17)} {d : Domain (ZMod 17)} {c : Challenges (ZMod 17) Unit} {t : UInt8}
    (hd : Domain.new env17.ta air17 = .ok d) (h : step1 env17 air17 proof d env17.tr.init = .ok (c, t)) : c.z = 8 := by
  obtain ⟨g, w, D⟩ := domain_new setting17.rows setting17.length setting17.blowup hd
  unfold step1 at h
  simp only [Outcome.bind_eq_ok, Outcome.pure_eq, Outcome.ok.injEq, Prod.mk.injEq] at h
  obtain ⟨root0, -, boundary, hb, ⟨z, tz⟩, hz, t7, -, ⟨io, t13⟩, hio, rfl, -⟩ := h
  obtain rfl := Outcome.ok.inj hb
  obtain ⟨-, -, k, hk, hj⟩ := (Props.C51_outside _ _ _ _ _ _ _).mp (ofOptionUnwrap_ok.mp hz)
  change z = 8
  generalize proof.ldeTraceMerkleRoots[1]? = x at hk hj
  have hne : ¬ ((8 : ZMod 17) ∈ d.ldeRootsOfUnityCoset ∨ (8 : ZMod 17) ∈ d.traceRootsOfUnity) := by
    rw [D.lde, D.traceRoots]
    obtain rfl : (9 : ZMod 17) = w := by
      have := D.hw
      exact Option.some.inj ((by rfl : roots17.root 3 = some 9).symm.trans this)
    obtain rfl : (13 : ZMod 17) = g := by
      have := D.hg
      exact Option.some.inj ((by rfl : roots17.root 2 = some 13).symm.trans this)
    decide +kernel
  rcases Nat.eq_zero_or_pos k with rfl | hpos
  · cases x <;> exact (Prod.mk.inj hk).1
  · cases x <;> exact absurd (hj 0 hpos) hne

open Examples ExampleAirs in
/-- The hypotheses of the theorems are met by an honest proof, which has two openings of two values; for the second
half of `C86_composition_value_partial`, its out-of-domain point is not zero. -/
example : ∃ (p : StarkProof (ZMod 17)) (o : DeepPolynomialOpenings (ZMod 17)),
    fibonacci2 p.traceLength ⟨1, 1⟩ (options17 3) = .ok air17 ∧ air17.context.proofOptions = options17 3 ∧
    Setting air17 2 1 ∧ WellFormed air17 p (2 + 1) ∧ 2 ≤ air17.context.traceColumns ∧
    verify env17 fibonacci2 p ⟨1, 1⟩ (options17 3) = .ok true ∧ p.deepPolyOpenings[1]? = some o ∧
    ∀ d c t, Domain.new env17.ta air17 = .ok d → step1 env17 air17 p d env17.tr.init = .ok (c, t) → c.z ≠ 0 := by
  obtain ⟨p, values, trees, h1, h2, h3, h4, -⟩ := honest17_commits
  have hl : 1 < p.deepPolyOpenings.length := by rw [h4.openingCount]; decide
  refine ⟨p, _, h1, rfl, h2, wellFormed_of_shape setting17.rows le_rfl h4, by decide, h3,
    List.getElem?_eq_getElem hl, fun d c t hd hs => ?_⟩
  rw [point17 hd hs]
  decide

end Verif.Props
