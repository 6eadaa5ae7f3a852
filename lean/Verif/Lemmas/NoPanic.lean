import Verif.Lemmas.ForgedProof

/-!
# The verifier ends without panicking on well-formed proofs
-/

namespace Verif
open Polynomial Spec
variable {F T Ch : Type} [Field F] [DecidableEq F] {env : Env F T}

omit [DecidableEq F] in
theorem foldlM_exists {α σ : Type} {f : σ → α → Outcome Empty σ} {l : List α}
    (h : ∀ a ∈ l, ∀ s, ∃ s', f s a = .ok s') (s : σ) : ∃ s', l.foldlM f s = .ok s' := by
  obtain ⟨s', hs, -⟩ := foldlM_invariant (l := l) (f := f) (fun _ _ => True) (s := s) trivial
    (fun k a s ha _ => by
      obtain ⟨s', hs'⟩ := h a (List.mem_of_getElem? ha) s
      exact ⟨s', hs', trivial⟩)
  exact ⟨s', hs⟩

omit [DecidableEq F] in
theorem sampleZetas_length (roots : List Commitment) (t : T) : (sampleZetas env roots t).1.length = roots.length := by
  induction roots generalizing t with
  | nil => rfl
  | cons r rest ih => simp only [sampleZetas, List.length_cons, ih]

theorem step1_zetas {air : Air F Ch} {proof : StarkProof F} {d : Domain F} {t t' : T} {c : Challenges F Ch}
    (h : step1 env air proof d t = .ok (c, t')) : c.zetas.length = proof.friLayersMerkleRoots.length := by
  unfold step1 at h
  simp only [Outcome.bind_eq_ok, Outcome.pure_eq, Outcome.ok.injEq, Prod.mk.injEq] at h
  obtain ⟨root0, -, boundary, -, ⟨z, tz⟩, hz, t7, -, ⟨io, t13⟩, hio, rfl, -⟩ := h
  exact sampleZetas_length _ _

theorem verifyQuery_exists {proof : StarkProof F} {zetas : List F} {iota : Nat} {q : FriDecommitment F}
    {d : Domain F} {p two : F} (hq : q.layersEvaluations ≠ [])
    (hz : zetas.length = proof.friLayersMerkleRoots.length)
    (hl : proof.friLayersMerkleRoots.length ≤ d.ldeRootOrder + 1) :
    ∃ b, verifyQuery env proof zetas iota q d p two = .ok b := by
  obtain ⟨v, hv⟩ : ∃ v, q.layersEvaluations[0]? = some v := by
    cases h : q.layersEvaluations with
    | nil => exact absurd h hq
    | cons v l => exact ⟨v, rfl⟩
  have hpos : 1 ≤ q.layersEvaluations.length := List.length_pos_of_ne_nil hq
  unfold verifyQuery
  rw [index_ok hv, Outcome.bind_ok]
  obtain ⟨r, hr, -⟩ := foldlM_invariant (l := layerItems proof q p)
    (f := verifyLayer env proof zetas iota q d two) (fun _ _ => True) (s := (true, v)) trivial (by
    intro k item s hi _
    obtain ⟨hk, hroot, -, -, -, -, -⟩ := layerItems_getElem?.mp hi
    have hk' := (List.getElem?_eq_some_iff.mp hroot).1
    unfold verifyLayer
    simp only [hk]
    rw [show (checkedSub d.ldeRootOrder k : Outcome Empty Nat) = .ok (d.ldeRootOrder - k) from
      checkedSub_ok.mpr ⟨by omega, rfl⟩, Outcome.bind_ok, index_ok (List.getElem?_eq_getElem (by omega : k < zetas.length)),
      Outcome.bind_ok, show (checkedSub q.layersEvaluations.length 1 : Outcome Empty Nat) = .ok _ from
      checkedSub_ok.mpr ⟨hpos, rfl⟩, Outcome.bind_ok]
    split
    next hlt =>
      rw [index_ok (List.getElem?_eq_getElem (by omega : k + 1 < q.layersEvaluations.length)), Outcome.bind_ok]
      exact ⟨_, rfl, trivial⟩
    · exact ⟨_, rfl, trivial⟩)
  rw [hr]
  exact ⟨_, rfl⟩

theorem step3_exists {d : Domain F} {a b : Nat} {h g w : F} (D : IsDomain env.ta d a b h g w) (hh : h ≠ 0)
    {c : Challenges F Ch} (hi : ∀ i ∈ c.iotas, i < 2 ^ d.ldeRootOrder) {proof : StarkProof F}
    (hq : ∀ q ∈ proof.queryList, q.layersEvaluations ≠ [])
    (hz : c.zetas.length = proof.friLayersMerkleRoots.length)
    (hl : proof.friLayersMerkleRoots.length ≤ d.ldeRootOrder + 1) :
    ∃ r, step3 env proof d c = .ok r := by
  unfold step3
  simp only [invOrPanic, if_neg D.two_ne, Outcome.bind_ok]
  rw [mapOutcome_eq_map (g := fun i => w ^ i * h), Outcome.bind_ok, batchInverse_ok, Outcome.bind_ok]
  · apply foldlM_exists
    intro x hx s
    obtain ⟨r, hr⟩ := verifyQuery_exists (env := env) (iota := x.1.2) (d := d) (p := x.2) (two := 2⁻¹)
      (hq x.1.1 (List.of_mem_zip (List.of_mem_zip hx).1).1) hz hl
    rw [hr]
    exact ⟨_, rfl⟩
  · intro x hx
    obtain ⟨i, -, rfl⟩ := List.mem_map.mp hx
    exact mul_ne_zero (pow_ne_zero _ D.w_ne) hh
  · intro i hi'
    have := hi i hi'
    rw [D.ldeRootOrder] at this
    rw [index_ok (D.lde_getElem? this)]

omit [DecidableEq F] in
/-- The rows of the frame of a well-formed proof. -/
theorem wellFormed_rows {air : Air F Ch} {proof : StarkProof F} {m : Nat} (W : WellFormed air proof m)
    (hcols : 0 < air.context.traceColumns) :
    ∃ rows : List (List F), rows.length = air.context.transitionOffsets.length ∧
      (∀ r ∈ rows, r.length = air.context.traceColumns) ∧
      proof.traceOodFrameEvaluations = ⟨rows.flatten, air.context.traceColumns⟩ := by
  obtain ⟨rows, h1, h2⟩ := TraceTable.exists_rows
    ⟨proof.traceOodFrameEvaluations.data, air.context.traceColumns⟩ hcols ⟨_, by rw [W.frame, mul_comm]⟩
  have h3 : proof.traceOodFrameEvaluations.data = rows.flatten := congrArg TraceTable.table h1
  refine ⟨rows, ?_, h2, ?_⟩
  · have := W.frame
    rw [h3, length_flatten_const _ _ h2] at this
    exact Nat.eq_of_mul_eq_mul_right hcols this
  · rw [← h3, ← W.width]

theorem step4_exists {air : Air F Ch} {d : Domain F} {a b : Nat} {h g w : F} (D : IsDomain env.ta d a b h g w)
    (haux : air.numberAuxiliaryRapColumns ≤ air.context.traceColumns)
    (hcols : 0 < air.context.traceColumns)
    {c : Challenges F Ch} (hi : ∀ i ∈ c.iotas, i < 2 ^ d.ldeRootOrder)
    (hz : c.z ∉ d.ldeRootsOfUnityCoset) (hz2 : ∀ i ∈ c.iotas, w ^ i * h ≠ c.z ^ 2)
    {proof : StarkProof F} {m : Nat} (W : WellFormed air proof m) (hlen : c.iotas.length ≤ proof.queryList.length) :
    ∃ r, step4 env air proof d c = .ok r := by
  obtain ⟨rows, hrl, hr, hdata⟩ := wellFormed_rows W hcols
  have hnum : (proof.traceOodFrameEvaluations.numRows : Outcome Empty Nat) = .ok rows.length := by
    rw [hdata]
    unfold Frame.numRows
    simp only [if_neg (by omega : ¬ air.context.traceColumns = 0)]
    rw [length_flatten_const _ _ hr, Nat.mul_div_cancel _ hcols]
  unfold step4
  rw [D.rootOrder, getRoot_ok.mpr D.hg, Outcome.bind_ok]
  simp only
  rw [mapOutcome_eq_map (g := fun i => w ^ i * h - c.z ^ 2), Outcome.bind_ok, batchInverse_ok, Outcome.bind_ok]
  · apply foldlM_exists
    rintro ⟨i, ⟨iota, o⟩, inv⟩ hx s
    obtain ⟨k, hk⟩ := List.mem_iff_getElem?.mp hx
    rw [List.getElem?_zip_eq_some, List.getElem?_zip_eq_some, List.getElem?_zip_eq_some] at hk
    obtain ⟨hki, ⟨hkiota, hko⟩, -⟩ := hk
    obtain ⟨hklt, hki⟩ := List.getElem?_eq_some_iff.mp hki
    rw [List.getElem_range] at hki
    subst hki
    have hiota := hi iota (List.mem_of_getElem? hkiota)
    rw [D.ldeRootOrder] at hiota
    have hoi := W.openings o (List.mem_of_getElem? hko)
    have hklt : k < proof.queryList.length := (List.getElem?_eq_some_iff.mp hkiota).1.trans_le hlen
    unfold verifyDeepAt
    simp only
    rw [show (checkedSub air.context.traceColumns air.numberAuxiliaryRapColumns : Outcome Empty Nat)
      = .ok (air.context.traceColumns - air.numberAuxiliaryRapColumns) from checkedSub_ok.mpr ⟨haux, rfl⟩,
      Outcome.bind_ok]
    refine exists_bind (v := o.ldeTraceEvaluations.take
      (air.context.traceColumns - air.numberAuxiliaryRapColumns)) ?_ ?_
    · unfold subslice
      rw [if_pos ⟨by omega, by omega⟩]
      simp
    rw [hnum, Outcome.bind_ok, mapOutcome_eq_map (g := fun r => w ^ iota * h - c.z * g ^ r), Outcome.bind_ok,
      batchInverse_ok, Outcome.bind_ok]
    · obtain ⟨v, hv⟩ : ∃ v, reconstructDeep proof c inv (((List.range rows.length).map fun r =>
          w ^ iota * h - c.z * g ^ r).map (·⁻¹)) k = .ok v := by
        unfold reconstructDeep
        rw [index_ok hko, Outcome.bind_ok]
        simp only
        refine exists_bind (Classical.choose_spec (foldlM_exists ?_ _)) ⟨_, rfl⟩
        intro x hx s
        have hx1 : x.1 < air.context.traceColumns := by
          have := (List.of_mem_zip hx).1
          rw [hdata] at this
          exact List.mem_range.mp this
        rw [hnum, Outcome.bind_ok]
        refine exists_bind (Classical.choose_spec (foldlM_exists ?_ _)) ⟨_, rfl⟩
        intro y hy s
        have hy1 : y.1 < rows.length := List.mem_range.mp (List.of_mem_zip hy).1
        rw [index_ok (List.getElem?_eq_getElem (by omega : x.1 < o.ldeTraceEvaluations.length)), Outcome.bind_ok,
          hdata, ExampleAirs.getRow_flatten hr hy1, Outcome.bind_ok,
          index_ok (List.getElem?_eq_getElem (by
            rw [List.getD_eq_getElem _ _ hy1, hr _ (List.getElem_mem _)]; exact hx1)), Outcome.bind_ok,
          index_ok (List.getElem?_eq_getElem (by simpa using hy1)), Outcome.bind_ok]
        exact ⟨_, rfl⟩
      rw [hv, Outcome.bind_ok, index_ok (List.getElem?_eq_getElem hklt), Outcome.bind_ok]
      have hq := W.queries _ (List.getElem_mem hklt)
      rw [index_ok (List.getElem?_eq_getElem (List.length_pos_of_ne_nil hq)), Outcome.bind_ok]
      exact ⟨_, rfl⟩
    · intro x hx
      obtain ⟨r, -, rfl⟩ := List.mem_map.mp hx
      exact D.mul_g_notMem_lde hz iota r
    · intro r _
      rw [index_ok (D.lde_getElem? hiota), Outcome.bind_ok, Outcome.pure_eq]
  · intro x hx
    obtain ⟨i, hi', rfl⟩ := List.mem_map.mp hx
    exact sub_ne_zero.mpr (hz2 i hi')
  · intro i hi'
    have := hi i hi'
    rw [D.ldeRootOrder] at this
    rw [index_ok (D.lde_getElem? this), Outcome.bind_ok, Outcome.pure_eq]

/-- The verifier gives an answer on well-formed proofs, for the states of the transcript that occur. -/
theorem verify_exists_at {PI : Type} {new : AirNew F Ch PI} {pi : PI} {options : ProofOptions}
    {proof : StarkProof F} {air : Air F Ch} (hair : new proof.traceLength pi options = .ok air)
    (hopt : air.context.proofOptions = options) {a b : Nat} (S : Setting air a b)
    (hab : a + b < 64) (had : a + b ≤ env.ta.adicity)
    (hz2 : ∀ w z : F, env.ta.root (a + b) = some w → ∀ i : Nat,
      w ^ i * (air.context.proofOptions.cosetOffset : F) ≠ z ^ 2)
    (hc : ∀ ch, ∃ cs, PolynomialConstraints air ch cs)
    {root0 : Commitment} {rest : List Commitment} (hroots : proof.ldeTraceMerkleRoots = root0 :: rest)
    {bcs : List (BoundaryConstraint F)}
    (hbcs : air.boundaryConstraints (buildRapChallenges env air (env.tr.append env.tr.init root0.val)).1 = .ok bcs)
    (hcols : ∀ c ∈ bcs, c.col < air.context.traceColumns)
    (hz : ∀ d, Domain.new env.ta air = .ok d → env.tr.sampleZOod env.ofDigest d.ldeRootsOfUnityCoset
      d.traceRootsOfUnity (beforePoint env air proof.ldeTraceMerkleRoots bcs.length proof.compositionPolyRoot) ≠ none)
    (W : WellFormed air proof (a + b)) :
    ∃ r, verify env new proof pi options = .ok r := by
  unfold verify
  split
  · exact ⟨_, rfl⟩
  next hq =>
  obtain ⟨d, hd⟩ := domain_exists S.rows S.length S.blowup hab had
  obtain ⟨g, w, D⟩ := domain_new S.rows S.length S.blowup hd
  obtain ⟨rows, hrl, hr, hdata⟩ := wellFormed_rows W S.fits.columns_pos
  obtain ⟨c, t, h1, hrap⟩ := step1_exists_at (env := env) (air := air) (d := d) (proof := proof) hroots
    (by rw [D.ldeRootOrder]; exact D.small) hbcs (by rw [← hroots]; exact hz d hd)
    (fun t => by rw [hdata]; exact appendFrame_exists S.fits.columns_pos hr t)
  simp only [hair, hd, h1, Outcome.bind_ok]
  obtain ⟨hi1, hi2, -, -, hi5, hi6⟩ := step1_inv h1
  split
  · exact ⟨_, rfl⟩
  rw [← hrap] at hbcs
  obtain ⟨cs, hcs⟩ := hc c.rapChallenges
  have hev := hcs.computes rows hrl hr
  have hlen : 0 < rows.length := by rw [hrl]; exact S.fits.offsets_pos
  have h2 := step2_eq D S.fits S.length ((D.notMem_trace_iff _).mp hi2) (proof := proof) (row0 := rows.getD 0 [])
    hbcs (by rw [hdata]; exact ExampleAirs.getRow_flatten hr hlen)
    (fun x hx => by
      rw [List.getD_eq_getElem _ _ hlen, hr _ (List.getElem_mem _)]
      exact hcols x hx) (by rw [hdata]; exact hev)
  rw [h2, Outcome.bind_ok]
  split
  · exact ⟨_, rfl⟩
  obtain ⟨r3, h3⟩ := step3_exists D S.offset hi6 W.queries (step1_zetas h1)
    (by rw [D.ldeRootOrder]; exact W.layers)
  rw [h3, Outcome.bind_ok]
  split
  · exact ⟨_, rfl⟩
  obtain ⟨r4, h4⟩ := step4_exists (air := air) D S.fits.aux_le S.fits.columns_pos hi6 hi1
    (fun i _ => hz2 w _ D.hw i) W (by rw [hi5, hopt]; omega)
  rw [h4, Outcome.bind_ok]
  split
  · exact ⟨_, rfl⟩
  · exact ⟨_, rfl⟩

/-- The verifier gives an answer on well-formed proofs. -/
theorem verify_exists {PI : Type} {new : AirNew F Ch PI} {pi : PI} {options : ProofOptions}
    {proof : StarkProof F} {air : Air F Ch} (hair : new proof.traceLength pi options = .ok air)
    (hopt : air.context.proofOptions = options) {a b : Nat} (S : Setting air a b)
    (hab : a + b < 64) (had : a + b ≤ env.ta.adicity)
    (hz2 : ∀ w z : F, env.ta.root (a + b) = some w → ∀ i : Nat,
      w ^ i * (air.context.proofOptions.cosetOffset : F) ≠ z ^ 2)
    (hc : ∀ ch, ∃ cs, PolynomialConstraints air ch cs)
    (hb : ∀ root ∈ proof.ldeTraceMerkleRoots.head?,
      ∃ bcs, air.boundaryConstraints (challengesAfter env air root) = .ok bcs ∧
        ∀ c ∈ bcs, c.col < air.context.traceColumns)
    (hz : SamplingEnds env air)
    (W : WellFormed air proof (a + b)) :
    ∃ r, verify env new proof pi options = .ok r := by
  obtain ⟨root0, rest, hroots⟩ := List.exists_cons_of_ne_nil W.roots
  obtain ⟨bcs, hbcs, hcols⟩ := hb root0 (by rw [hroots]; rfl)
  refine verify_exists_at hair hopt S hab had hz2 hc hroots hbcs hcols (fun d hd => hz _ _ hd) W

end Verif
