import Verif.Lemmas.Rounds

/-!
# Lemmas about the DEEP composition polynomial
-/

namespace Verif
open Polynomial Spec
variable {F T Ch : Type} [Field F] [DecidableEq F]

omit [DecidableEq F] in
theorem ruffini_eval (p : F[X]) (b x : F) (hx : x ≠ b) :
    (ruffini (p - C (p.eval b)) b).eval x = (p.eval x - p.eval b) / (x - b) := by
  unfold ruffini
  have h1 : (X - C b) * ((p - C (p.eval b)) /ₘ (X - C b)) = p - C (p.eval b) := by
    rw [mul_divByMonic_eq_iff_isRoot, IsRoot.def, eval_sub, eval_C, sub_self]
  have h2 := congrArg (eval x) h1
  rw [eval_mul, eval_sub, eval_X, eval_C, eval_sub, eval_C] at h2
  rw [← h2, mul_div_cancel_left₀ _ (sub_ne_zero.mpr hx)]

omit [DecidableEq F] in
theorem ruffini_C_mul_eval (γ : F) (p : F[X]) (b x : F) (hx : x ≠ b) :
    (ruffini (C γ * (p - C (p.eval b))) b).eval x = γ * ((p.eval x - p.eval b) / (x - b)) := by
  have h := ruffini_eval (C γ * p) b x hx
  rw [eval_mul, eval_C, eval_mul, eval_C] at h
  rw [mul_sub, ← C_mul, h]
  ring

omit [DecidableEq F] in
theorem ruffini_degree {p : F[X]} {n : Nat} (hp : p.degree < n) (b : F) : (ruffini p b).degree < n :=
  lt_of_le_of_lt (degree_divByMonic_le _ _) hp

omit [DecidableEq F] in
theorem sub_C_degree {p : F[X]} {n : Nat} (hn : 0 < n) (hp : p.degree < n) (v : F) :
    (p - C v).degree < n := by
  refine lt_of_le_of_lt (degree_sub_le _ _) (max_lt hp (lt_of_le_of_lt degree_C_le ?_))
  exact_mod_cast hn

omit [DecidableEq F] in
theorem C_mul_degree {p : F[X]} {n : Nat} (hp : p.degree < n) (v : F) : (C v * p).degree < n := by
  by_cases h : v = 0
  · rw [h, C_0, zero_mul, degree_zero]; exact WithBot.bot_lt_coe _
  · rw [degree_C_mul h]; exact hp

/-- The terms of one trace polynomial. -/
noncomputable def deepTermPoly (offsets : List Nat) (g z : F) (p : F[X]) (row : List F) : F[X] :=
  ((offsets.zip row).map fun x => ruffini (p - C (p.eval (z * g ^ x.1))) (z * g ^ x.1) * C x.2).sum

omit [DecidableEq F] in
theorem frameRows_index (polys : List F[X]) (offsets : List Nat) (g z : F) (k o i : Nat) (p : F[X])
    (ho : offsets[k]? = some o) (hp : polys[i]? = some p) :
    ∃ row, (frameRows polys offsets g z)[k]? = some row ∧ row[i]? = some (p.eval (z * g ^ o)) := by
  refine ⟨polys.map fun p => p.eval (z * g ^ o), ?_, ?_⟩
  · unfold frameRows; rw [List.getElem?_map, ho]; rfl
  · rw [List.getElem?_map, hp]; rfl

omit [DecidableEq F] in
theorem deepTraceTerm_ok (polys : List F[X]) (offsets : List Nat) (g z : F) (gammas : List (List F))
    (hg : ∀ r ∈ gammas, r.length = offsets.length) (i : Nat) (p : F[X]) (row : List F)
    (hp : polys[i]? = some p) (hrow : gammas[i]? = some row) :
    deepTraceTerm i p (frameRows polys offsets g z) offsets z g gammas.flatten
      = .ok (deepTermPoly offsets g z p row) := by
  unfold deepTraceTerm deepTermPoly
  have hfl : (frameRows polys offsets g z).length = offsets.length := by simp [frameRows]
  obtain ⟨hi, rfl⟩ := List.getElem?_eq_some_iff.mp hrow
  have hrl : (gammas[i]).length = offsets.length := hg _ (List.getElem_mem _)
  have hdrop := flatten_slice gammas offsets.length hg i hi
  rw [foldlM_sum (g := fun x : (List F × Nat) × F =>
    ruffini (p - C (p.eval (z * g ^ x.1.2))) (z * g ^ x.1.2) * C x.2), zero_add]
  · refine congrArg Outcome.ok (congrArg List.sum (List.ext_getElem ?_ fun j h1 h2 => ?_))
    · simp only [List.length_map, List.length_zip, hfl, List.length_drop,
        length_flatten_const gammas _ hg, hrl]
      have : i * offsets.length + offsets.length ≤ gammas.length * offsets.length := by
        rw [← Nat.succ_mul]; exact Nat.mul_le_mul_right _ hi
      omega
    · simp only [List.getElem_map, List.getElem_zip]
      have hj : j < offsets.length := by
        simp only [List.length_map, List.length_zip] at h2
        omega
      have : (gammas.flatten.drop (i * (frameRows polys offsets g z).length))[j]'(by
          simp only [List.length_map, List.length_zip] at h1; omega) = (gammas[i])[j]'(by omega) := by
        apply Option.some.inj
        rw [← List.getElem?_eq_getElem, ← List.getElem?_eq_getElem, ← hdrop,
          List.getElem?_take_of_lt hj, hfl]
      rw [this]
  · rintro ⟨⟨r, o⟩, γ⟩ hx acc
    have hx1 := (List.of_mem_zip hx).1
    obtain ⟨k, hk⟩ := List.getElem?_of_mem hx1
    rw [List.getElem?_zip_eq_some] at hk
    obtain ⟨r', h1, h2⟩ := frameRows_index polys offsets g z k o i p hk.2 hp
    rw [hk.1] at h1
    cases h1
    simp only
    rw [index_ok h2, Outcome.bind_ok, Outcome.pure_eq]

/-- The prover's DEEP composition polynomial. -/
theorem computeDeep_ok {air : Air F Ch} {polys : List F[X]} {r2 : Round2 F} {r3 : Round3 F} {z g : F}
    (hframe : r3.traceOodEvaluations = frameRows polys air.context.transitionOffsets g z)
    (heven : r3.compositionPolyEvenOodEvaluation = r2.compositionPolyEven.eval (z ^ 2))
    (hodd : r3.compositionPolyOddOodEvaluation = r2.compositionPolyOdd.eval (z ^ 2))
    {gammas : List (List F)} (hg : ∀ r ∈ gammas, r.length = air.context.transitionOffsets.length)
    (hgl : polys.length = gammas.length) {n : Nat} (hn : 0 < n) (hdeg : ∀ p ∈ polys, p.degree < n)
    (hde : r2.compositionPolyEven.degree < n) (hdo : r2.compositionPolyOdd.degree < n)
    (gammaEven gammaOdd : F) :
    ∃ P, computeDeepCompositionPoly air polys r2 r3 z g gammaEven gammaOdd gammas.flatten = .ok P ∧
      P.degree < n ∧
      ∀ x, x ≠ z ^ 2 → (∀ o ∈ air.context.transitionOffsets, x ≠ z * g ^ o) →
        P.eval x = deepAt polys air.context.transitionOffsets r2.compositionPolyEven
          r2.compositionPolyOdd g z gammas gammaEven gammaOdd x := by
  unfold computeDeepCompositionPoly
  rw [hframe, heven, hodd, foldlM_sum (g := fun x : Nat × F[X] =>
    deepTermPoly air.context.transitionOffsets g z x.2 (gammas.getD x.1 []))]
  · simp only [zero_add, Outcome.bind_ok, Outcome.pure_eq]
    have hsum : (((List.range polys.length).zip polys).map fun x : Nat × F[X] =>
        deepTermPoly air.context.transitionOffsets g z x.2 (gammas.getD x.1 []))
        = (polys.zip gammas).map fun x => deepTermPoly air.context.transitionOffsets g z x.1 x.2 := by
      refine List.ext_getElem (by simp [hgl]) fun j h1 h2 => ?_
      simp only [List.getElem_map, List.getElem_zip, List.getElem_range]
      rw [List.getD, List.getElem?_eq_getElem, Option.getD_some]
    refine ⟨_, rfl, ?_, ?_⟩
    · refine lt_of_le_of_lt (degree_add_le _ _) (max_lt ?_ ?_)
      · refine lt_of_le_of_lt (degree_add_le _ _) (max_lt ?_ ?_)
        · exact ruffini_degree (C_mul_degree (sub_C_degree hn hde _) _) _
        · exact ruffini_degree (C_mul_degree (sub_C_degree hn hdo _) _) _
      · refine list_sum_degree_lt fun q hq => ?_
        obtain ⟨⟨i, p⟩, hx, rfl⟩ := List.mem_map.mp hq
        refine list_sum_degree_lt fun q hq => ?_
        obtain ⟨⟨o, γ⟩, -, rfl⟩ := List.mem_map.mp hq
        rw [mul_comm]
        exact C_mul_degree (ruffini_degree (sub_C_degree hn (hdeg p (List.of_mem_zip hx).2) _) _) _
    · intro x hx hxo
      rw [eval_add, eval_add, ruffini_C_mul_eval _ _ _ _ hx, ruffini_C_mul_eval _ _ _ _ hx, hsum]
      unfold deepAt
      have : (((polys.zip gammas).map fun x => deepTermPoly air.context.transitionOffsets g z x.1 x.2).sum).eval x
          = ((polys.zip gammas).map fun (p, row) => ((air.context.transitionOffsets.zip row).map
              fun (o, γ) => γ * ((p.eval x - p.eval (z * g ^ o)) / (x - z * g ^ o))).sum).sum := by
        rw [eval_listSum, List.map_map]
        congr 1
        refine List.map_congr_left fun y _ => ?_
        simp only [Function.comp_apply]
        unfold deepTermPoly
        rw [eval_listSum, List.map_map]
        congr 1
        refine List.map_congr_left fun u hu => ?_
        simp only [Function.comp_apply]
        rw [eval_mul, ruffini_eval _ _ _ (hxo u.1 (List.of_mem_zip hu).1), eval_C, mul_comm]
      rw [this]
      ring
  · rintro ⟨i, p⟩ hx acc
    obtain ⟨j, hj⟩ := List.getElem?_of_mem hx
    rw [List.getElem?_zip_eq_some] at hj
    obtain ⟨hj1, hj2⟩ := hj
    obtain ⟨hjl, rfl⟩ := List.getElem?_eq_some_iff.mp hj1
    simp only [List.length_range] at hjl
    rw [List.getElem_range]
    have hrow : gammas[j]? = some (gammas[j]'(by omega)) := List.getElem?_eq_getElem _
    rw [deepTraceTerm_ok polys _ g z gammas hg j p _ hj2 hrow, Outcome.bind_ok, Outcome.pure_eq]
    simp only [List.getD, hrow, Option.getD_some]

end Verif

namespace Verif
open Polynomial Spec
variable {F T Ch : Type} [Field F] [DecidableEq F]
variable {env : Env F T} {d : Domain F} {a b : Nat} {h g w : F}

/-- The honest openings at a queried index. -/
theorem openDeepAt_ok (D : IsDomain env.ta d a b h g w) {rows : List (List F)} {r1 : Round1 F Ch}
    (R1 : IsRound1 env a b h g w rows r1) {H : F[X]} {r2 : Round2 F} (R2 : IsRound2 env a b h w H r2)
    {iota : Nat} (hi : iota < 2 ^ (a + b)) :
    ∃ o, openDeepAt env d r1 r2 iota = .ok o ∧
      o.ldeCompositionPolyEvenEvaluation = r2.compositionPolyEven.eval (w ^ iota * h) ∧
      o.ldeCompositionPolyOddEvaluation = r2.compositionPolyOdd.eval (w ^ iota * h) ∧
      o.ldeTraceEvaluations = r1.tracePolys.map (fun p => p.eval (w ^ iota * h)) ∧
      Merkle.verify env.hashes.leafBatch env.hashes.node o.ldeCompositionPolyProof r2.compositionPolyRoot
        iota [o.ldeCompositionPolyEvenEvaluation, o.ldeCompositionPolyOddEvaluation] = true := by
  have hpos : 0 < 2 ^ (a + b) := by positivity
  obtain ⟨path, hp1, hp2⟩ := Merkle.getProof_ok env.hashes.leafBatch env.hashes.node _ (a + b) (by simp)
    _ R2.tree iota hi
  have htrees : ∃ ps, mapOutcome (fun t : Merkle.Tree => (Outcome.ofOptionUnwrap
      (t.getProofByPos env.hashes.node iota) : Outcome Empty _)) r1.ldeTraceMerkleTrees = .ok ps := by
    have key : ∀ l : List Merkle.Tree, (∀ t ∈ l, t ∈ r1.ldeTraceMerkleTrees) →
        ∃ ps, mapOutcome (fun t : Merkle.Tree => (Outcome.ofOptionUnwrap
          (t.getProofByPos env.hashes.node iota) : Outcome Empty _)) l = .ok ps := by
      intro l
      induction l with
      | nil => intro _; exact ⟨[], rfl⟩
      | cons t rest ih =>
        intro hl
        obtain ⟨vs, hv1, hv2⟩ := R1.trees t (hl t (by simp))
        obtain ⟨p, hp, -⟩ := Merkle.getProof_ok env.hashes.leafBatch env.hashes.node vs (a + b) hv1 t hv2
          iota hi
        obtain ⟨ps, hps⟩ := ih fun t ht => hl t (by simp [ht])
        exact ⟨p :: ps, by rw [mapOutcome, hps, hp]; rfl⟩
    exact key _ fun t ht => ht
  obtain ⟨ps, hps⟩ := htrees
  have hrow : (r1.ldeTrace.getRow iota : Outcome Empty _)
      = .ok (r1.tracePolys.map fun p => p.eval (w ^ iota * h)) := by
    rw [R1.lde]
    have := TraceTable.getRow_ofRows (ε := Empty) ((List.range (2 ^ (a + b))).map fun i =>
      r1.tracePolys.map fun p => p.eval (w ^ i * h)) r1.tracePolys.length (by
        intro r hr
        obtain ⟨i, -, rfl⟩ := List.mem_map.mp hr
        simp) iota (by simpa using hi)
    refine Eq.trans this ?_
    simp
  unfold openDeepAt
  rw [if_neg (by rw [D.lde_length]; omega), D.lde_length, Nat.mod_eq_of_lt hi]
  simp only [hp1, Outcome.ofOptionUnwrap, Outcome.bind_ok]
  rw [index_ok (show r2.ldeCompositionPolyEvenEvaluations[iota]?
      = some (r2.compositionPolyEven.eval (w ^ iota * h)) by
        rw [R2.ldeEven, List.getElem?_map, List.getElem?_range hi]; rfl), Outcome.bind_ok,
    index_ok (show r2.ldeCompositionPolyOddEvaluations[iota]?
      = some (r2.compositionPolyOdd.eval (w ^ iota * h)) by
        rw [R2.ldeOdd, List.getElem?_map, List.getElem?_range hi]; rfl), Outcome.bind_ok]
  have hps' := hps
  simp only [Outcome.ofOptionUnwrap] at hps'
  rw [hps', Outcome.bind_ok, hrow, Outcome.bind_ok, Outcome.pure_eq]
  refine ⟨_, rfl, rfl, rfl, rfl, ?_⟩
  rw [R2.root]
  refine hp2 iota _ (Nat.mod_eq_of_lt hi) ?_
  rw [List.getElem?_map, List.getElem?_range hi]
  rfl

theorem frame_numRows (polys : List F[X]) (hp : 0 < polys.length) (offsets : List Nat) (g z : F) :
    (Frame.numRows ⟨(frameRows polys offsets g z).flatten, polys.length⟩ : Outcome Empty Nat)
      = .ok offsets.length := by
  unfold Frame.numRows
  simp only [if_neg (by omega : ¬ polys.length = 0)]
  rw [length_flatten_const _ polys.length (by
    intro r hr
    obtain ⟨o, -, rfl⟩ := List.mem_map.mp hr
    simp)]
  rw [Nat.mul_div_cancel _ hp]
  simp [frameRows]

theorem frame_getRow {ε : Type} (polys : List F[X]) (offsets : List Nat) (g z : F) (k o : Nat)
    (ho : offsets[k]? = some o) :
    (Frame.getRow ⟨(frameRows polys offsets g z).flatten, polys.length⟩ k : Outcome ε (List F))
      = .ok (polys.map fun p => p.eval (z * g ^ o)) := by
  unfold Frame.getRow
  obtain ⟨hk, rfl⟩ := List.getElem?_eq_some_iff.mp ho
  have := subslice_flatten (ε := ε) (frameRows polys offsets g z) polys.length (by
    intro r hr
    obtain ⟨o, -, rfl⟩ := List.mem_map.mp hr
    simp) k (by simpa [frameRows] using hk)
  simp only at this ⊢
  rw [this]
  simp [frameRows]

/-- The value the verifier reconstructs from honest openings. -/
theorem reconstructDeep_ok {polys : List F[X]} (hpos : 0 < polys.length) {k : Nat} {even odd : F[X]} {z x : F}
    {proof : StarkProof F} {c : Challenges F Ch} {i : Nat} {o : DeepPolynomialOpenings F}
    (hframe : proof.traceOodFrameEvaluations
      = ⟨(frameRows polys (List.range k) g z).flatten, polys.length⟩)
    (heven : proof.compositionPolyEvenOodEvaluation = even.eval (z ^ 2))
    (hodd : proof.compositionPolyOddOodEvaluation = odd.eval (z ^ 2))
    (ho : proof.deepPolyOpenings[i]? = some o)
    (hoe : o.ldeCompositionPolyEvenEvaluation = even.eval x)
    (hoo : o.ldeCompositionPolyOddEvaluation = odd.eval x)
    (hot : o.ldeTraceEvaluations = polys.map (fun p => p.eval x))
    (hgl : c.traceTermCoeffs.length = polys.length) (hgr : ∀ r ∈ c.traceTermCoeffs, r.length = k) :
    reconstructDeep proof c (x - z ^ 2)⁻¹ ((List.range k).map fun r => (x - z * g ^ r)⁻¹) i
      = .ok (deepAt polys (List.range k) even odd g z c.traceTermCoeffs c.gammaEven c.gammaOdd x) := by
  unfold reconstructDeep
  rw [index_ok ho, Outcome.bind_ok]
  simp only [hframe, frame_numRows polys hpos, Outcome.bind_ok, List.length_range]
  rw [foldlM_sum (g := fun y : Nat × List F => (((List.range k).zip y.2).map fun u : Nat × F =>
    u.2 * (((polys.getD y.1 0).eval x - (polys.getD y.1 0).eval (z * g ^ u.1)) / (x - z * g ^ u.1))).sum)]
  · simp only [zero_add, Outcome.bind_ok, Outcome.pure_eq]
    refine congrArg Outcome.ok ?_
    unfold deepAt
    have hsum : (((List.range polys.length).zip c.traceTermCoeffs).map fun y : Nat × List F =>
        (((List.range k).zip y.2).map fun u : Nat × F => u.2 * (((polys.getD y.1 0).eval x
          - (polys.getD y.1 0).eval (z * g ^ u.1)) / (x - z * g ^ u.1))).sum)
        = (polys.zip c.traceTermCoeffs).map fun (p, row) => (((List.range k).zip row).map fun (o, γ) =>
          γ * ((p.eval x - p.eval (z * g ^ o)) / (x - z * g ^ o))).sum := by
      refine zip_range_map polys c.traceTermCoeffs _ _ fun j p y hj _ => ?_
      simp only [List.getD, hj, Option.getD_some]
    rw [hsum, heven, hodd, hoe, hoo]
    ring
  · rintro ⟨j, row⟩ hx acc
    have hj : j < polys.length := by simpa using (List.of_mem_zip hx).1
    have hrow : row.length = k := hgr row (List.of_mem_zip hx).2
    simp only
    rw [foldlM_sum (g := fun u : Nat × F =>
      u.2 * (((polys.getD j 0).eval x - (polys.getD j 0).eval (z * g ^ u.1)) / (x - z * g ^ u.1)))]
    · rw [zero_add, Outcome.bind_ok, Outcome.pure_eq]
    · rintro ⟨r, γ⟩ hu acc
      have hr : r < k := by simpa using (List.of_mem_zip hu).1
      have hpj : polys[j]? = some polys[j] := List.getElem?_eq_getElem hj
      simp only
      rw [index_ok (show o.ldeTraceEvaluations[j]? = some ((polys[j]).eval x) by
          rw [hot, List.getElem?_map, hpj]; rfl), Outcome.bind_ok,
        frame_getRow polys (List.range k) g z r r (by simp [hr]), Outcome.bind_ok,
        index_ok (show (polys.map fun p => p.eval (z * g ^ r))[j]? = some ((polys[j]).eval (z * g ^ r)) by
          rw [List.getElem?_map, hpj]; rfl), Outcome.bind_ok,
        index_ok (show ((List.range k).map fun r => (x - z * g ^ r)⁻¹)[r]? = some ((x - z * g ^ r)⁻¹) by
          rw [List.getElem?_map, List.getElem?_range hr]; rfl), Outcome.bind_ok, Outcome.pure_eq]
      refine congrArg Outcome.ok ?_
      simp only [List.getD, hpj, Option.getD_some]
      rw [div_eq_mul_inv]
      ring

/-- The fourth step accepts honest openings and honest first layer values. -/
theorem step4_ok (D : IsDomain env.ta d a b h g w) {air : Air F Ch} (haux : air.numberAuxiliaryRapColumns ≤ air.context.traceColumns)
    {polys : List F[X]} (hpos : 0 < polys.length)
    (hcols : polys.length = air.context.traceColumns) {k : Nat} {even odd : F[X]} {z : F}
    {proof : StarkProof F} {c : Challenges F Ch} (hz : c.z = z) (hzl : z ∉ d.ldeRootsOfUnityCoset)
    (hframe : proof.traceOodFrameEvaluations
      = ⟨(frameRows polys (List.range k) g z).flatten, polys.length⟩)
    (heven : proof.compositionPolyEvenOodEvaluation = even.eval (z ^ 2))
    (hodd : proof.compositionPolyOddOodEvaluation = odd.eval (z ^ 2))
    (hgl : c.traceTermCoeffs.length = polys.length) (hgr : ∀ r ∈ c.traceTermCoeffs, r.length = k)
    (hiotas : ∀ i ∈ c.iotas, i < 2 ^ (a + b)) (hz2 : ∀ i ∈ c.iotas, w ^ i * h ≠ z ^ 2)
    (hopen : ∀ (i iota : Nat) (o : DeepPolynomialOpenings F), c.iotas[i]? = some iota →
      proof.deepPolyOpenings[i]? = some o →
      o.ldeCompositionPolyEvenEvaluation = even.eval (w ^ iota * h) ∧
      o.ldeCompositionPolyOddEvaluation = odd.eval (w ^ iota * h) ∧
      o.ldeTraceEvaluations = polys.map (fun p => p.eval (w ^ iota * h)) ∧
      Merkle.verify env.hashes.leafBatch env.hashes.node o.ldeCompositionPolyProof proof.compositionPolyRoot
        iota [o.ldeCompositionPolyEvenEvaluation, o.ldeCompositionPolyOddEvaluation] = true)
    (hquery : ∀ (i iota : Nat), c.iotas[i]? = some iota → ∃ q, proof.queryList[i]? = some q ∧
      q.layersEvaluations[0]? = some (deepAt polys (List.range k) even odd g z c.traceTermCoeffs c.gammaEven
        c.gammaOdd (w ^ iota * h))) :
    step4 env air proof d c = .ok true := by
  unfold step4
  rw [D.rootOrder, getRoot_ok.mpr D.hg, Outcome.bind_ok]
  simp only [hz]
  rw [mapOutcome_eq_map (g := fun i => w ^ i * h - z ^ 2), Outcome.bind_ok, batchInverse_ok, Outcome.bind_ok]
  rotate_left
  · intro x hx
    obtain ⟨i, hi, rfl⟩ := List.mem_map.mp hx
    exact sub_ne_zero.mpr (hz2 i hi)
  · intro i hi
    rw [index_ok (D.lde_getElem? (hiotas i hi)), Outcome.bind_ok, Outcome.pure_eq]
  set items := (c.iotas.zip proof.deepPolyOpenings).zip
    ((c.iotas.map fun i => w ^ i * h - z ^ 2).map (·⁻¹)) with hitems
  obtain ⟨s', hs, rfl⟩ := foldlM_invariant (f := verifyDeepAt env air proof d c g)
    (l := (List.range items.length).zip items) (fun _ s => s = true) (s := true) rfl (by
      rintro j ⟨i, ⟨iota, o⟩, inv⟩ s hj rfl
      rw [List.getElem?_zip_eq_some] at hj
      obtain ⟨hj1, hj2⟩ := hj
      obtain ⟨hjl, rfl⟩ := List.getElem?_eq_some_iff.mp hj1
      rw [List.getElem_range]
      replace hj2 : items[j]? = some ((iota, o), inv) := hj2
      rw [hitems, List.getElem?_zip_eq_some, List.getElem?_zip_eq_some] at hj2
      obtain ⟨⟨hi1, hi2⟩, hi3⟩ := hj2
      simp only [List.getElem?_map, hi1, Option.map_some, Option.some.injEq] at hi3
      simp only at hi1 hi2 hi3
      have him : iota ∈ c.iotas := List.mem_of_getElem? hi1
      obtain ⟨ho1, ho2, ho3, ho4⟩ := hopen j iota o hi1 hi2
      obtain ⟨q, hq1, hq2⟩ := hquery j iota hi1
      refine ⟨true, ?_, rfl⟩
      unfold verifyDeepAt
      simp only [ho4, Bool.true_and, checkedSub, if_pos haux, Outcome.bind_ok]
      have hsub : (subslice o.ldeTraceEvaluations 0 (air.context.traceColumns - air.numberAuxiliaryRapColumns)
          : Outcome Empty _) = .ok (o.ldeTraceEvaluations.take
            (air.context.traceColumns - air.numberAuxiliaryRapColumns)) := by
        unfold subslice
        rw [if_pos ⟨by omega, by rw [ho3, List.length_map, hcols]; omega⟩]
        simp
      rw [hsub, Outcome.bind_ok, hframe, frame_numRows polys hpos, Outcome.bind_ok, List.length_range,
        mapOutcome_eq_map (g := fun r => w ^ iota * h - z * g ^ r), Outcome.bind_ok, batchInverse_ok,
        Outcome.bind_ok]
      · have hrec := reconstructDeep_ok (g := g) (c := c) hpos hframe heven hodd hi2 ho1 ho2 ho3 hgl hgr
        rw [List.map_map]
        rw [← hi3]
        have : ((fun x : F => x⁻¹) ∘ fun r => w ^ iota * h - z * g ^ r)
            = fun r => (w ^ iota * h - z * g ^ r)⁻¹ := rfl
        rw [this, hrec, Outcome.bind_ok, index_ok hq1, Outcome.bind_ok, index_ok hq2, Outcome.bind_ok,
          Outcome.pure_eq]
        simp
      · intro x hx
        obtain ⟨r, -, rfl⟩ := List.mem_map.mp hx
        exact D.mul_g_notMem_lde hzl iota r
      · intro r _
        rw [index_ok (D.lde_getElem? (hiotas iota him)), Outcome.bind_ok, Outcome.pure_eq, hz])
  exact hs

end Verif
