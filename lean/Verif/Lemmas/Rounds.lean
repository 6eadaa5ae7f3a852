import Verif.Lemmas.Verifier

/-!
# Lemmas about the rounds of the prover
-/

namespace Verif
open Polynomial Spec TraceTable
variable {F T Ch : Type} [Field F] [DecidableEq F]
variable {env : Env F T} {d : Domain F} {a b : Nat} {h g w : F}

omit [DecidableEq F] in
theorem rows_ofRows (rows : List (List F)) (k : Nat) (hk : 0 < k) (hr : ∀ r ∈ rows, r.length = k) :
    (ofRows rows k).rows = .ok rows := by
  unfold TraceTable.rows
  rw [nRows_ofRows rows k hk hr]
  refine mapOutcome_range rfl fun i hi => ?_
  exact subslice_flatten rows k hr i hi

/-- The values of polynomials as columns make the table of their values as rows. -/
theorem newFromCols_values {polys : List F[X]} (hne : polys ≠ []) (xs : Nat → F) (N : Nat) :
    newFromCols (polys.map fun p => (List.range N).map fun i => p.eval (xs i))
      = .ok (ofRows ((List.range N).map fun i => polys.map fun p => p.eval (xs i)) polys.length) := by
  have hlen : ∀ c ∈ polys.map fun p => (List.range N).map fun i => p.eval (xs i), c.length = N := by
    intro c hc
    obtain ⟨p, -, rfl⟩ := List.mem_map.mp hc
    simp
  rw [newFromCols_ok _ N (by simpa using hne) hlen, List.length_map]
  refine congrArg Outcome.ok ?_
  congr 1
  refine List.map_congr_left fun i hi => ?_
  have hi := List.mem_range.mp hi
  obtain ⟨h1, h2⟩ := rowOf_eq _ N i hlen hi
  refine List.ext_getElem? fun j => ?_
  by_cases hj : j < polys.length
  · rw [h2 j (by simpa using hj)]
    simp [hi, hj]
  · rw [List.getElem?_eq_none (by rw [h1]; simpa using hj), List.getElem?_eq_none (by simpa using hj)]

theorem batchCommit_ok (rows : List (List F)) (k : Nat) (hl : rows.length = 2 ^ k) :
    ∃ tree, batchCommit env rows = .ok (tree, tree.root) ∧
      Merkle.build env.hashes.leafBatch env.hashes.node rows = .ok tree := by
  unfold batchCommit
  rw [Merkle.build_ok _ _ rows k hl]
  exact ⟨_, rfl, rfl⟩

/-- Interpolating, extending and committing to a table of `2^a` rows. -/
theorem interpolateAndCommit_ok (D : IsDomain env.ta d a b h g w) {rows : List (List F)} {k : Nat}
    (hk : 0 < k) (hrows : rows.length = 2 ^ a) (hr : ∀ r ∈ rows, r.length = k) (t : T) :
    ∃ polys tree,
      interpolateAndCommit env (ofRows rows k) d t
        = .ok ((polys, polys.map (fun p => (List.range (2 ^ (a + b))).map fun i => p.eval (w ^ i * h)),
          tree, tree.root), env.tr.append t tree.root.val) ∧
      polys.length = k ∧ (∀ p ∈ polys, p.degree < (2 ^ a : Nat)) ∧
      rows = ((List.range (2 ^ a)).map fun i => polys.map fun p => p.eval (g ^ i)) ∧
      Merkle.build env.hashes.leafBatch env.hashes.node
        ((List.range (2 ^ (a + b))).map fun i => polys.map fun p => p.eval (w ^ i * h)) = .ok tree := by
  have hnr := nRows_ofRows rows k hk hr
  obtain ⟨cols, hc1, hc2, hc3, hc4⟩ := Props.C33_table_has_columns (ofRows rows k) hk (by
    show k ∣ rows.flatten.length
    rw [length_flatten_const rows k hr]
    exact Dvd.intro_left _ rfl)
  rw [hnr, hrows] at hc3
  have ha64 : a < 64 := by have := D.small; omega
  have hint : ∀ c ∈ cols, ∃ q : F[X], interpolateOffsetFft env.ta c 1 = .ok q ∧
      q.degree < (2 ^ a : Nat) ∧ ∀ i < 2 ^ a, q.eval (g ^ i * 1) = c.getD i 0 := fun c hc =>
    interpolateOffsetFft_ok D.a_pos ha64 D.hg one_ne_zero c (hc3 c hc)
  obtain ⟨polys, hpolys⟩ : ∃ polys, mapOutcome (fun col => interpolateOffsetFft env.ta col 1) cols
      = .ok polys := by
    clear hc1 hc2 hc4
    induction cols with
    | nil => exact ⟨[], rfl⟩
    | cons c t ih =>
      obtain ⟨q, hq, -⟩ := hint c (by simp)
      obtain ⟨ps, hps⟩ := ih (fun c hc => hc3 c (by simp [hc])) (fun c hc => hint c (by simp [hc]))
      exact ⟨q :: ps, by rw [mapOutcome, hq, hps]; rfl⟩
  obtain ⟨hpl, hpe⟩ := mapOutcome_mem hpolys
  have hplen : polys.length = k := hpl.trans hc2
  have hprop : ∀ (j : Nat) (hj : j < polys.length), (polys[j]).degree < (2 ^ a : Nat) ∧
      ∀ i < 2 ^ a, (polys[j]).eval (g ^ i) = (cols[j]'(by omega)).getD i 0 := by
    intro j hj
    obtain ⟨q, hq1, hq2, hq3⟩ := hint (cols[j]'(by omega)) (List.getElem_mem _)
    rw [hpe j (by omega) hj] at hq1
    cases hq1
    exact ⟨hq2, fun i hi => by simpa using hq3 i hi⟩
  have hdeg : ∀ p ∈ polys, p.degree < (2 ^ a : Nat) := by
    intro p hp
    obtain ⟨j, hj, rfl⟩ := List.getElem_of_mem hp
    exact (hprop j hj).1
  have hne : polys ≠ [] := by
    intro h0
    rw [h0] at hplen
    simp at hplen
    omega
  obtain ⟨tree, ht1, ht2⟩ := batchCommit_ok (env := env)
    ((List.range (2 ^ (a + b))).map fun i => polys.map fun p => p.eval (w ^ i * h)) (a + b) (by simp)
  refine ⟨polys, tree, ?_, hplen, hdeg, ?_, ht2⟩
  · unfold interpolateAndCommit TraceTable.computeTracePolys computeLdeTraceEvaluations
    rw [hc1, Outcome.bind_ok, hpolys, Outcome.bind_ok, D.blowup, D.size, D.cosetOffset,
      mapOutcome_eq_map (g := fun p : F[X] => (List.range (2 ^ (a + b))).map fun i => p.eval (w ^ i * h))
        _ (fun p hp => evaluateOnLde_ok (hdeg p hp) D.small D.hw), Outcome.bind_ok,
      newFromCols_values hne, Outcome.bind_ok, rows_ofRows _ _ (by omega) (by
        intro r hr
        obtain ⟨i, -, rfl⟩ := List.mem_map.mp hr
        simp), Outcome.bind_ok, ht1]
    rfl
  · have hcols : cols = polys.map fun p => (List.range (2 ^ a)).map fun i => p.eval (g ^ i) := by
      refine List.ext_getElem (by simp [hpl]) fun j h1 h2 => ?_
      have hj : j < polys.length := by omega
      rw [List.getElem_map]
      refine List.ext_getElem (by simp [hc3 _ (List.getElem_mem h1)]) fun i h3 h4 => ?_
      have hi : i < 2 ^ a := by simpa using h4
      rw [List.getElem_map, List.getElem_range, (hprop j hj).2 i hi, List.getD,
        List.getElem?_eq_getElem h3, Option.getD_some]
    rw [hcols, newFromCols_values hne] at hc4
    have := Outcome.ok.inj hc4
    have h1 := congrArg TraceTable.rows this
    rw [rows_ofRows rows k hk hr, rows_ofRows _ _ (by omega) (by
        intro r hr
        obtain ⟨i, -, rfl⟩ := List.mem_map.mp hr
        simp)] at h1
    exact (Outcome.ok.inj h1).symm

/-- What the first round leaves: trace polynomials for the rows of the trace, their values on the
extended domain and the trees committing to them. -/
structure IsRound1 (env : Env F T) (a b : Nat) (h g w : F) (rows : List (List F)) (r1 : Round1 F Ch) :
    Prop where
  degree : ∀ p ∈ r1.tracePolys, p.degree < (2 ^ a : Nat)
  values : rows = (List.range (2 ^ a)).map fun i => r1.tracePolys.map fun p => p.eval (g ^ i)
  lde : r1.ldeTrace = ldeTable r1.tracePolys w h (2 ^ (a + b))
  trees : ∀ tree ∈ r1.ldeTraceMerkleTrees, ∃ vectors : List (List F), vectors.length = 2 ^ (a + b) ∧
    Merkle.build env.hashes.leafBatch env.hashes.node vectors = .ok tree
  roots : r1.ldeTraceMerkleRoots = r1.ldeTraceMerkleTrees.map (·.root)

/-- The rows of the main and the auxiliary trace side by side. -/
def joinRows (main aux : List (List F)) : List (List F) := List.zipWith (· ++ ·) main aux

/-- The transcript after the first round, from the roots sent: shared with the verifier. -/
def transcriptRound1 (env : Env F T) (air : Air F Ch) (roots : List Commitment) (t : T) : T :=
  match roots with
  | [] => t
  | root0 :: rest =>
    let rap := buildRapChallenges env air (env.tr.append t root0.val)
    match rest with
    | [] => rap.2
    | root1 :: _ => env.tr.append rap.2 root1.val

theorem round1_ok (D : IsDomain env.ta d a b h g w) {air : Air F Ch} {rows : List (List F)} {k : Nat}
    (hk : 0 < k) (hrows : rows.length = 2 ^ a) (hr : ∀ r ∈ rows, r.length = k) {t t' : T} {r1 : Round1 F Ch}
    (hr1 : round1 env air (ofRows rows k) d t = .ok (r1, t')) :
    ∃ root0 rest, r1.ldeTraceMerkleRoots = root0 :: rest ∧
      r1.rapChallenges = (buildRapChallenges env air (env.tr.append t root0.val)).1 ∧
      t' = transcriptRound1 env air r1.ldeTraceMerkleRoots t ∧
      ∃ aux, air.buildAuxiliaryTrace (ofRows rows k) r1.rapChallenges = .ok aux ∧
        ((aux.nCols = 0 ∧ IsRound1 env a b h g w rows r1 ∧ r1.tracePolys.length = k) ∨
          0 < aux.nCols ∧ ∀ auxRows, aux = ofRows auxRows aux.nCols → auxRows.length = 2 ^ a →
            (∀ r ∈ auxRows, r.length = aux.nCols) →
            IsRound1 env a b h g w (joinRows rows auxRows) r1 ∧ r1.tracePolys.length = k + aux.nCols) := by
  obtain ⟨polys, tree, hm1, hm2, hm3, hm4, hm5⟩ := interpolateAndCommit_ok D hk hrows hr t
  have hne : polys ≠ [] := by
    intro h0
    rw [h0] at hm2
    simp at hm2
    omega
  unfold round1 at hr1
  simp only [hm1, Outcome.bind_ok, Outcome.bind_eq_ok] at hr1
  obtain ⟨aux, haux, hr1⟩ := hr1
  split at hr1
  · rename_i h0
    rw [newFromCols_values hne] at hr1
    simp only [Outcome.bind_ok, Outcome.pure_eq, Outcome.ok.injEq, Prod.mk.injEq] at hr1
    obtain ⟨rfl, rfl⟩ := hr1
    refine ⟨tree.root, [], rfl, rfl, rfl, aux, haux, .inl ⟨h0, ⟨hm3, hm4, rfl, ?_, rfl⟩, hm2⟩⟩
    intro tr htr
    simp only [List.mem_singleton] at htr
    subst htr
    exact ⟨_, by simp, hm5⟩
  · rename_i h0
    simp only [Outcome.bind_eq_ok, Outcome.pure_eq, Outcome.ok.injEq, Prod.mk.injEq] at hr1
    obtain ⟨⟨⟨polysA, evA, treeA, rootA⟩, tA⟩, hA, table, htable, rfl, rfl⟩ := hr1
    have hpos : 0 < aux.nCols := Nat.pos_of_ne_zero h0
    refine ⟨tree.root, [rootA], rfl, rfl, ?_, aux, haux, .inr ⟨hpos, ?_⟩⟩
    · unfold interpolateAndCommit batchCommit at hA
      simp only [Outcome.bind_eq_ok, Outcome.pure_eq, Outcome.ok.injEq, Prod.mk.injEq] at hA
      obtain ⟨_, _, _, _, _, _, _, _, _, ⟨_, _, rfl⟩, ⟨-, -, -, rfl⟩, rfl⟩ := hA
      rfl
    · intro auxRows hauxRows hlen hwidth
      obtain ⟨polys', tree', ha1, ha2, ha3, ha4, ha5⟩ := interpolateAndCommit_ok D hpos hlen hwidth
        (buildRapChallenges env air (env.tr.append t tree.root.val)).2
      rw [← hauxRows, hA] at ha1
      simp only [Outcome.ok.injEq, Prod.mk.injEq] at ha1
      obtain ⟨⟨rfl, rfl, rfl, rfl⟩, rfl⟩ := ha1
      rw [← List.map_append, newFromCols_values (by simp [hne])] at htable
      obtain rfl := Outcome.ok.inj htable
      refine ⟨⟨?_, ?_, rfl, ?_, rfl⟩, by simp [hm2, ha2]⟩
      · intro p hp
        rcases List.mem_append.mp hp with hp | hp
        · exact hm3 p hp
        · exact ha3 p hp
      · unfold joinRows
        conv_lhs => rw [hm4, ha4]
        rw [List.zipWith_map, List.zipWith_self]
        simp
      · intro tr htr
        simp only [List.mem_cons, List.not_mem_nil, or_false] at htr
        rcases htr with rfl | rfl
        · exact ⟨_, by simp, hm5⟩
        · exact ⟨_, by simp, ha5⟩

end Verif

namespace Verif
open Polynomial Spec TraceTable
variable {F T Ch : Type} [Field F] [DecidableEq F]
variable {env : Env F T} {d : Domain F} {a b : Nat} {h g w : F}

/-- The evaluator only succeeds when the extended domain is disjoint from the trace domain. -/
theorem evaluateConstraints_disjoint (D : IsDomain env.ta d a b h g w) {air : Air F Ch}
    (hn : air.traceLength = 2 ^ a) (hblow : air.context.proofOptions.blowupFactor.toNat = 2 ^ b)
    (hb : 1 ≤ b) (hh : (air.context.proofOptions.cosetOffset : F) = h)
    {boundary : List (BoundaryConstraint F)} {table : TraceTable F} {tc bc : List (F × F)} {ch : Ch}
    {l : List F} (hev : evaluateConstraints env.ta air boundary table d tc bc ch = .ok l) :
    h ^ 2 ^ (a + b) ≠ 1 := by
  have hb8 : b < 8 := by
    by_contra hc
    have h1 : 2 ^ 8 ≤ 2 ^ b := Nat.pow_le_pow_right (by norm_num) (by omega)
    have h2 := air.context.proofOptions.blowupFactor.toNat_lt
    omega
  unfold evaluateConstraints at hev
  simp only [Outcome.bind_eq_ok] at hev
  obtain ⟨_, _, _, _, hev⟩ := hev
  split at hev
  · cases hev
  simp only [Outcome.bind_eq_ok] at hev
  obtain ⟨_, _, _, _, _, _, _, _, _, _, powers, hpow, z, hz, -⟩ := hev
  rw [hblow, hh, hn, trailingZeros_two_pow 8 b hb8] at hpow
  obtain ⟨v, hv, rfl⟩ := powersCoset_ok.mp hpow
  have hne := (batchInverse_eq_ok.mp hz).1
  have hprim := env.ta.primitive b v hb hv
  intro hc
  have h1 : (h ^ 2 ^ a) ^ 2 ^ b = 1 := by rw [← pow_mul, ← pow_add]; exact hc
  have h2 : ((h ^ 2 ^ a)⁻¹) ^ 2 ^ b = 1 := by rw [inv_pow, h1, inv_one]
  have : NeZero (2 ^ b) := ⟨by positivity⟩
  obtain ⟨i, hi, hvi⟩ := hprim.eq_pow_of_pow_eq_one h2
  have h0 : h ^ 2 ^ a ≠ 0 := by
    intro h0
    rw [h0, zero_pow (by positivity)] at h1
    exact zero_ne_one h1
  refine hne 0 (List.mem_map.mpr ⟨v ^ i * h ^ 2 ^ a, List.mem_map.mpr ⟨i, List.mem_range.mpr hi, rfl⟩, ?_⟩) rfl
  rw [hvi, inv_mul_cancel₀ h0, sub_self]

theorem IsDomain.coset_notMem (D : IsDomain env.ta d a b h g w) (hN : h ^ 2 ^ (a + b) ≠ 1) (i : Nat) :
    (w ^ i * h) ^ 2 ^ a ≠ 1 := by
  intro hc
  have h1 : ((w ^ i * h) ^ 2 ^ a) ^ 2 ^ b = 1 := by rw [hc, one_pow]
  rw [← pow_mul, ← pow_add, mul_pow, ← pow_mul, mul_comm i, pow_mul, D.w_primitive.pow_eq_one, one_pow,
    one_mul] at h1
  exact hN h1

theorem constraintsAt_computes {air : Air F Ch} {ch : Ch} {cs : List (MvPolynomial (Nat × Nat) F)}
    (hc : PolynomialConstraints air ch cs) {polys : List F[X]} (hp : polys.length = air.context.traceColumns)
    (g x : F) :
    air.computeTransition ⟨(frameRows polys air.context.transitionOffsets g x).flatten, polys.length⟩ ch
      = .ok (constraintsAt cs polys air.context.transitionOffsets g x) := by
  rw [hp, hc.computes _ (by simp [frameRows]) (by
    intro r hr
    obtain ⟨o, -, rfl⟩ := List.mem_map.mp hr
    simpa using hp)]
  rfl

/-- What the second round leaves for a polynomial `H` of the constraint composition. -/
structure IsRound2 (env : Env F T) (a b : Nat) (h w : F) (H : F[X]) (r2 : Round2 F) : Prop where
  even : r2.compositionPolyEven = (evenOdd H).1
  odd : r2.compositionPolyOdd = (evenOdd H).2
  ldeEven : r2.ldeCompositionPolyEvenEvaluations
    = (List.range (2 ^ (a + b))).map fun i => r2.compositionPolyEven.eval (w ^ i * h)
  ldeOdd : r2.ldeCompositionPolyOddEvaluations
    = (List.range (2 ^ (a + b))).map fun i => r2.compositionPolyOdd.eval (w ^ i * h)
  tree : Merkle.build env.hashes.leafBatch env.hashes.node ((List.range (2 ^ (a + b))).map fun i =>
    [r2.compositionPolyEven.eval (w ^ i * h), r2.compositionPolyOdd.eval (w ^ i * h)])
      = .ok r2.compositionPolyMerkleTree
  root : r2.compositionPolyRoot = r2.compositionPolyMerkleTree.root

/-- Once the evaluations are known to be those of a polynomial of degree below `2^(m+1)`, the second
round succeeds. -/
theorem round2_of_evaluations (D : IsDomain env.ta d a b h g w) (hh0 : h ≠ 0) (hb : 1 ≤ b) {m : Nat} (ham : a ≤ m)
    (hmb : m + 1 ≤ a + b) (hm64 : m + b < 64) (had : m + b ≤ env.ta.adicity) {air : Air F Ch}
    {r1 : Round1 F Ch} {tc bc : List (F × F)} {boundary : List (BoundaryConstraint F)}
    (hbc : air.boundaryConstraints r1.rapChallenges = .ok boundary) {H : F[X]}
    (hH : H.degree < (2 * 2 ^ m : Nat))
    (hev : evaluateConstraints env.ta air boundary r1.ldeTrace d tc bc r1.rapChallenges
      = .ok ((List.range (2 ^ (a + b))).map fun i => H.eval (w ^ i * h))) :
    ∃ r2, round2 env air d r1 tc bc = .ok r2 ∧ IsRound2 env a b h w H r2 := by
  have hpos := D.a_pos
  have hH' : H.degree < (2 ^ (a + b) : Nat) := by
    refine lt_of_lt_of_le hH ?_
    have : 2 * 2 ^ m ≤ 2 ^ (a + b) := by
      rw [mul_comm, ← pow_succ]
      exact Nat.pow_le_pow_right (by norm_num) (by omega)
    exact_mod_cast this
  have hcomp : computeCompositionPoly env.ta ((List.range (2 ^ (a + b))).map fun i => H.eval (w ^ i * h)) h
      = .ok H := interpolateOffsetFft_eval (by omega) D.small D.hw hh0 H hH'
  have hzip : (((List.range (2 ^ (a + b))).map fun i => (evenOdd H).1.eval (w ^ i * h)).zip
      ((List.range (2 ^ (a + b))).map fun i => (evenOdd H).2.eval (w ^ i * h))).map (fun x => [x.1, x.2])
      = (List.range (2 ^ (a + b))).map fun i =>
        [(evenOdd H).1.eval (w ^ i * h), (evenOdd H).2.eval (w ^ i * h)] := by
    refine List.ext_getElem (by simp) fun j h1 h2 => ?_
    simp
  obtain ⟨tree, ht1, ht2⟩ := batchCommit_ok (env := env) ((List.range (2 ^ (a + b))).map fun i =>
    [(evenOdd H).1.eval (w ^ i * h), (evenOdd H).2.eval (w ^ i * h)]) (a + b) (by simp)
  unfold round2
  simp only [hbc, Outcome.bind_ok, hev, D.cosetOffset, hcomp, D.blowup, D.size,
    evaluateOnLde_large (by omega) ham (even_degree H _ hH) hm64 had D.hw,
    evaluateOnLde_large (by omega) ham (odd_degree H _ hH) hm64 had D.hw,
    hzip, ht1, Outcome.pure_eq]
  exact ⟨_, rfl, ⟨rfl, rfl, rfl, rfl, ht2, rfl⟩⟩

/-- The second round on a trace that satisfies the AIR. -/
theorem round2_satisfies (D : IsDomain env.ta d a b h g w) (hh0 : h ≠ 0) {air : Air F Ch} (hfit : Fits air)
    (hn : air.traceLength = 2 ^ a) (hblow : air.context.proofOptions.blowupFactor.toNat = 2 ^ b)
    (hb : 1 ≤ b) (hh : (air.context.proofOptions.cosetOffset : F) = h) (hN : h ^ 2 ^ (a + b) ≠ 1)
    {rows : List (List F)} {r1 : Round1 F Ch} (R1 : IsRound1 env a b h g w rows r1)
    (hp : r1.tracePolys.length = air.context.traceColumns) {cs : List (MvPolynomial (Nat × Nat) F)}
    (hc : PolynomialConstraints air r1.rapChallenges cs)
    (hsat : Satisfies air rows air.context.traceColumns r1.rapChallenges)
    {boundary : List (BoundaryConstraint F)} (hbc : air.boundaryConstraints r1.rapChallenges = .ok boundary)
    (tc bc : List (F × F)) :
    ∃ H r2, H = compositionPoly air g r1.tracePolys boundary cs bc tc ∧ H.degree < (2 * 2 ^ a : Nat) ∧
      (∀ x, x ^ 2 ^ a ≠ 1 → H.eval x = compositionAt air g r1.tracePolys boundary
        (constraintsAt cs r1.tracePolys air.context.transitionOffsets g x) bc tc x) ∧
      round2 env air d r1 tc bc = .ok r2 ∧ IsRound2 env a b h w H r2 := by
  have hn2 : 2 ≤ air.traceLength := by
    rw [hn]
    calc 2 = 2 ^ 1 := rfl
      _ ≤ 2 ^ a := Nat.pow_le_pow_right (by norm_num) D.a_pos
  have hdeg := R1.degree
  have hs := hsat
  rw [R1.values, ← hp] at hs
  obtain ⟨hs1, hs2⟩ := satisfies_polys hc D.g_primitive.pow_eq_one hp hs hbc
  have hH : (compositionPoly air g r1.tracePolys boundary cs bc tc).degree < (2 * 2 ^ a : Nat) := by
    refine compositionPoly_degree hfit hc hn2 (by rw [hn]; exact hdeg) g boundary bc tc
      (by have := hfit.bound_le; rw [hn] at this; exact this) ?_
    intro k dg e h1 h2
    have := hfit.bound_exemptions k dg e h1 h2
    rw [hn] at this
    exact this
  have heval : ∀ x, x ^ 2 ^ a ≠ 1 → (compositionPoly air g r1.tracePolys boundary cs bc tc).eval x
      = compositionAt air g r1.tracePolys boundary
        (constraintsAt cs r1.tracePolys air.context.transitionOffsets g x) bc tc x := by
    intro x hx
    refine compositionPoly_eval (by omega) (by rw [hn]; exact D.g_primitive) (fun c hcm => (hs1 c hcm).2.2)
      (by rw [hn]; exact hs2) bc tc x (by rw [hn]; exact hx)
  have hev := evaluateConstraints_ok D hfit hn hblow hb hh hN hp (fun c hcm => (hs1 c hcm).1)
    (fun i => constraintsAt cs r1.tracePolys air.context.transitionOffsets g (w ^ i * h))
    (fun i _ => constraintsAt_computes hc hp g (w ^ i * h)) tc bc
  have hmap : (List.range (2 ^ (a + b))).map (fun i => compositionAt air g r1.tracePolys boundary
      (constraintsAt cs r1.tracePolys air.context.transitionOffsets g (w ^ i * h)) bc tc (w ^ i * h))
      = (List.range (2 ^ (a + b))).map fun i =>
        (compositionPoly air g r1.tracePolys boundary cs bc tc).eval (w ^ i * h) := by
    refine List.map_congr_left fun i _ => ?_
    rw [heval _ (D.coset_notMem hN i)]
  rw [hmap, ← R1.lde] at hev
  obtain ⟨r2, hr2, R2⟩ := round2_of_evaluations D hh0 hb le_rfl (by omega) D.small (root_le_adicity D.hw) hbc hH hev
  exact ⟨_, r2, rfl, hH, heval, hr2, R2⟩

end Verif
