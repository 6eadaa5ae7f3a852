import Verif.Spec.Shape
import Verif.Lemmas.Complete
import Verif.Props.Codec

/-! Lemmas about the size of a proof. -/

namespace Verif
open Spec Polynomial TraceTable
variable {F T Ch : Type} [Field F] [DecidableEq F] {env : Env F T}

theorem pathOf_length (node : Commitment → Commitment → Commitment) (k : Nat) (l : List Commitment)
    (pos : Nat) : (Merkle.pathOf node k l pos).length = k := by
  induction k generalizing l pos with
  | zero => rfl
  | succ k ih => simp [Merkle.pathOf, ih]

/-- Paths in a tree over `2^k` values have `k` nodes. -/
theorem path_length {V : Type} {leaf : V → Commitment} {node : Commitment → Commitment → Commitment}
    {values : List V} {k : Nat} (hl : values.length = 2 ^ k) {t : Merkle.Tree}
    (ht : Merkle.build leaf node values = .ok t) {pos : Nat} {p : MerkleProof}
    (hp : t.getProofByPos node pos = some p) : p.merklePath.length = k := by
  rw [Merkle.build_ok leaf node values k hl] at ht
  obtain rfl := Outcome.ok.inj ht
  unfold Merkle.Tree.getProofByPos at hp
  split at hp
  · obtain rfl := Option.some.inj hp
    simp only [List.length_map, hl, Nat.log_pow (by norm_num : 1 < 2)]
    exact pathOf_length _ _ _ _
  · cases hp

/-- Opening a layer gives paths of the height of its tree. -/
theorem openLayer_paths {p : F[X]} {h w : F} {m : Nat} (hm : m < 64)
    (hp : p.degree < (2 ^ m : Nat)) (hw : env.ta.root m = some w) {layer : Fri.FriLayer F}
    (hl : Fri.FriLayer.new env p h (2 ^ m) = .ok layer) {iota : Nat}
    {x : (MerkleProof × F) × (MerkleProof × F)} (hx : Fri.openLayer env iota layer = .ok x) :
    x.1.1.merklePath.length = m ∧ x.2.1.merklePath.length = m := by
  obtain ⟨tree, htree, hnew⟩ := Fri.layer_new_ok (h := h) hm hp hw
  rw [hnew] at hl
  obtain rfl := Outcome.ok.inj hl
  unfold Fri.openLayer at hx
  split at hx
  · cases hx
  · simp only [Outcome.bind_eq_ok, Outcome.pure_eq, Outcome.ok.injEq, ofOptionUnwrap_ok] at hx
    obtain ⟨v, -, path, h1, v', -, path', h2, rfl⟩ := hx
    exact ⟨path_length (by simp) htree h1, path_length (by simp) htree h2⟩

/-- The answers to a query of an honest commitment. -/
theorem answer_shape {p q : F[X]} {h w : F} {a b : Nat} (hab : a + b < 64) (ha : 1 ≤ a)
    (hw : env.ta.root (a + b) = some w) (hp : p.degree < (2 ^ a : Nat))
    {ls : List (Fri.FriLayer F)} {zs : List F} {ps : Nat → F[X]} (hlen : ls.length = a)
    (hf : Fri.Folds env p h (a + b) ls zs q ps) {iota : Nat} {d : FriDecommitment F}
    (hd : Fri.answerQuery env ls iota = .ok d) :
    d.layersEvaluations.length = a ∧ d.layersEvaluationsSym.length = a ∧
    d.layersAuthPaths.map (·.merklePath.length) = (List.range a).map (fun k => a + b - k) ∧
    d.layersAuthPathsSym.map (·.merklePath.length) = (List.range a).map (fun k => a + b - k) := by
  unfold Fri.answerQuery at hd
  simp only [Outcome.bind_eq_ok, Outcome.pure_eq, Outcome.ok.injEq] at hd
  obtain ⟨opened, ho, rfl⟩ := hd
  obtain ⟨hol, hom⟩ := mapOutcome_mem ho
  have key : ∀ k (hk : k < opened.length), (opened[k]).1.1.merklePath.length = a + b - k ∧
      (opened[k]).2.1.merklePath.length = a + b - k := by
    intro k hk
    have hka : k < a := by omega
    have hkl : k < ls.length := by omega
    have hnew := hf.layer k _ (List.getElem?_eq_getElem hkl)
    obtain ⟨v, hv⟩ := Option.isSome_iff_exists.mp (env.ta.defined (a + b - k) (by omega)
      (by have := root_le_adicity hw; omega))
    have hdeg : (ps k).degree < (2 ^ (a + b - k) : Nat) := by
      refine lt_of_lt_of_le (hf.degree hp k (by omega) (by omega)) ?_
      exact_mod_cast Nat.pow_le_pow_right (by norm_num) (by omega)
    exact openLayer_paths (by omega) hdeg hv hnew (hom k hkl hk)
  refine ⟨by simp; omega, by simp; omega, ?_, ?_⟩
  · refine List.ext_getElem (by simp; omega) fun k h1 h2 => ?_
    simp only [List.getElem_map, List.getElem_range]
    exact (key k (by simpa using h1)).2
  · refine List.ext_getElem (by simp; omega) fun k h1 h2 => ?_
    simp only [List.getElem_map, List.getElem_range]
    exact (key k (by simpa using h1)).1

/-- The first round commits to the main trace, and to the auxiliary trace if it has columns. -/
theorem round1_trees {air : Air F Ch} {d : Domain F} {tr : TraceTable F} {t t' : T} {r1 : Round1 F Ch}
    (h : round1 env air tr d t = .ok (r1, t')) : ∃ aux,
      air.buildAuxiliaryTrace tr r1.rapChallenges = .ok aux ∧
      r1.ldeTraceMerkleTrees.length = (if aux.nCols = 0 then 1 else 2) := by
  unfold round1 at h
  simp only [Outcome.bind_eq_ok] at h
  obtain ⟨main, -, aux, haux, h⟩ := h
  refine ⟨aux, ?_⟩
  split at h
  · rename_i h0
    simp only [Outcome.bind_eq_ok, Outcome.pure_eq, Outcome.ok.injEq, Prod.mk.injEq] at h
    obtain ⟨lde, -, rfl, -⟩ := h
    exact ⟨haux, by rw [if_pos h0]; rfl⟩
  · rename_i h0
    simp only [Outcome.bind_eq_ok, Outcome.pure_eq, Outcome.ok.injEq, Prod.mk.injEq] at h
    obtain ⟨aux', -, lde, -, rfl, -⟩ := h
    exact ⟨haux, by rw [if_neg h0]; rfl⟩

/-- The size of the proof of a satisfying trace. -/
theorem shape_run {air : Air F Ch} {d : Domain F} {a b : Nat} {g w : F}
    (D : IsDomain env.ta d a b (air.context.proofOptions.cosetOffset : F) g w)
    (hn : air.traceLength = 2 ^ a) (hblow : air.context.proofOptions.blowupFactor.toNat = 2 ^ b) (hb : 1 ≤ b)
    (hh : (air.context.proofOptions.cosetOffset : F) ≠ 0) (hfit : Fits air)
    {rows : List (List F)} {k : Nat} (hk : 0 < k) (hrows : rows.length = 2 ^ a)
    (hr : ∀ r ∈ rows, r.length = k)
    {proof : StarkProof F} {c : Challenges F Ch} {t : T} {r1 : Round1 F Ch} {r2 : Round2 F} {deep : F[X]}
    {layers : List (Fri.FriLayer F)} {ps : Nat → F[X]}
    (hstep : step1 env air proof d env.tr.init = .ok (c, t))
    (U : ProverUses env air d (ofRows rows k) proof c r1 r2 deep layers ps)
    {cs : List (MvPolynomial (Nat × Nat) F)} (hc : PolynomialConstraints air c.rapChallenges cs)
    (hsat : ∀ aux bcs, air.buildAuxiliaryTrace (ofRows rows k) c.rapChallenges = .ok aux →
      air.boundaryConstraints c.rapChallenges = .ok bcs →
      SatisfiesExtended air rows k c.rapChallenges aux) :
    ∃ aux, air.buildAuxiliaryTrace (ofRows rows k) c.rapChallenges = .ok aux ∧
      ProofShape proof a b air.context.traceColumns (if aux.nCols = 0 then 1 else 2)
        air.context.transitionOffsets.length air.context.proofOptions.friNumberOfQueries := by
  set h : F := (air.context.proofOptions.cosetOffset : F) with hhdef
  obtain ⟨hz1, hztr, hg1, hg2, hi1, hi2⟩ := step1_inv hstep
  rw [D.ldeRootOrder] at hi2
  obtain ⟨t1, hr1⟩ := U.first
  have h2 := U.second
  have hrap := U.rap
  obtain ⟨full, H, boundary, R1, hplen, hfull, hbc, hcolb, hHdeg, hHeval, R2⟩ :=
    honest_rounds D hn hblow hb hh hfit hk hrows hr hr1 (by rw [hrap]; exact hc) (by rw [hrap]; exact hsat) h2
  have hframe : (round3 air d r1 r2 c.z).traceOodEvaluations
      = frameRows r1.tracePolys air.context.transitionOffsets g c.z := by
    simp only [round3, Frame.getTraceEvaluations, frameRows, List.map_map, D.tracePrimitiveRoot]
    rfl
  have hn0 : 0 < 2 ^ a := by positivity
  obtain ⟨P, hP1, hP2, hP3⟩ := computeDeep_ok (air := air) (g := g) (z := c.z) (r2 := r2)
    (r3 := round3 air d r1 r2 c.z) hframe rfl rfl hg2 (by rw [hplen, hg1]) hn0 R1.degree
    (by rw [R2.even]; exact even_degree _ _ hHdeg) (by rw [R2.odd]; exact odd_degree _ _ hHdeg)
    c.gammaEven c.gammaOdd
  have hdp := U.deep_poly
  rw [D.tracePrimitiveRoot, hP1] at hdp
  obtain rfl := Outcome.ok.inj hdp
  have hlen : layers.length = a := by rw [U.fri_count, D.rootOrder]
  have hf : Fri.Folds env P h (a + b) layers c.zetas (ps layers.length) ps := {
    start := U.fri_start
    stop := rfl
    lengths := U.fri_zetas
    layer := fun k l hl => by
      have := U.fri_layers k l hl
      rwa [D.lde_length, Nat.pow_div (by
        have := (List.getElem?_eq_some_iff.mp hl).1
        omega) (by norm_num)] at this
    next := U.fri_fold }
  obtain ⟨aux, haux, htrees⟩ := round1_trees hr1
  rw [hrap] at haux
  refine ⟨aux, haux, ?_⟩
  rw [← htrees]
  constructor
  · rw [U.traceLength, hn]
  · rw [U.traceRoots, R1.roots, List.length_map]
  · rw [U.frame]; exact hplen
  · rw [U.frame, hframe]
    simp only
    rw [length_flatten_const _ r1.tracePolys.length (by
      intro r hr
      obtain ⟨o, -, rfl⟩ := List.mem_map.1 hr
      simp), hplen]
    simp [frameRows]
  · rw [U.friRoots, List.length_map, hlen]
  · rw [← hi1]; exact (mapOutcome_mem U.queries).1
  · rw [← hi1]; exact (mapOutcome_mem U.openings).1
  · intro q hq
    obtain ⟨i, hi, rfl⟩ := List.mem_iff_getElem.1 hq
    obtain ⟨hml, hm⟩ := mapOutcome_mem U.queries
    exact answer_shape D.small D.a_pos D.hw hP2 hlen hf (hm i (by omega) hi)
  · intro o ho
    obtain ⟨i, hi, rfl⟩ := List.mem_iff_getElem.1 ho
    obtain ⟨hml, hm⟩ := mapOutcome_mem U.openings
    have ho := hm i (by omega) hi
    unfold openDeepAt at ho
    split at ho
    · cases ho
    · simp only [Outcome.bind_eq_ok, Outcome.pure_eq, Outcome.ok.injEq, ofOptionUnwrap_ok] at ho
      obtain ⟨cp, hcp, ev, -, od, -, proofs, hproofs, row, hrow, heq⟩ := ho
      rw [← heq]
      obtain ⟨hpl, hpm⟩ := mapOutcome_mem hproofs
      refine ⟨path_length (by simp) R2.tree hcp, hpl, ?_, ?_⟩
      · intro m hm
        obtain ⟨j, hj, rfl⟩ := List.mem_iff_getElem.1 hm
        have hj : j < proofs.length := hj
        obtain ⟨vectors, hv1, hv2⟩ := R1.trees _ (List.getElem_mem (by omega : j < r1.ldeTraceMerkleTrees.length))
        exact path_length hv1 hv2 (ofOptionUnwrap_ok.1 (hpm j (by omega) hj))
      · obtain ⟨o', ho1, -, -, ho2, -⟩ := openDeepAt_ok D R1 R2
          (hi2 _ (List.getElem_mem (by omega : i < c.iotas.length)))
        rw [hm i (by omega) hi] at ho1
        obtain rfl := Outcome.ok.inj ho1
        rw [← heq] at ho2
        rw [ho2, List.length_map, hplen]

theorem serializeMerkleProof_length (p : MerkleProof) :
    (serializeMerkleProof p).length = pathBytes p.merklePath.length := by
  unfold serializeMerkleProof pathBytes
  rw [List.length_append, length_beBytes, List.length_flatMap]
  congr 1
  induction p.merklePath with
  | nil => rfl
  | cons x t ih => simp only [List.map_cons, List.sum_cons, ih, x.2, List.length_cons]; omega

theorem paths_length (l : List MerkleProof) :
    (l.flatMap serializeMerkleProof).length = ((l.map (·.merklePath.length)).map pathBytes).sum := by
  rw [List.length_flatMap, List.map_map]
  congr 1
  exact List.map_congr_left fun p _ => serializeMerkleProof_length p

theorem elements_length (l : List FE) : (l.flatMap feToBytesBe).length = 32 * l.length := by
  rw [List.length_flatMap]
  induction l with
  | nil => rfl
  | cons x t ih =>
    rw [List.map_cons, List.sum_cons, ih, List.length_cons, length_feToBytesBe]; omega

theorem roots_length (l : List Commitment) : (l.flatMap (·.val)).length = 32 * l.length := by
  rw [List.length_flatMap]
  induction l with
  | nil => rfl
  | cons x t ih => simp only [List.map_cons, List.sum_cons, ih, List.length_cons, x.2]; omega

theorem queries_length {n : Nat} {l : List (FriDecommitment FE)} {bs : Bytes}
    (h : serializeQueries l = .ok bs)
    (hl : ∀ q ∈ l, ∀ b, q.serialize = .ok b → 8 + b.length = n) : bs.length = l.length * n := by
  induction l generalizing bs with
  | nil => simp only [serializeQueries, Outcome.ok.injEq] at h; subst h; simp
  | cons q t ih =>
    simp only [serializeQueries, Outcome.bind_eq_ok, Outcome.pure_eq, Outcome.ok.injEq] at h
    obtain ⟨b, hb, rest, hr, rfl⟩ := h
    have h1 := ih hr fun q hq => hl q (by simp [hq])
    have h2 := hl q (by simp) b hb
    simp only [List.length_append, length_beBytes, List.length_cons, h1, Nat.succ_mul]
    omega

theorem constant_sum {α : Type} (l : List α) (f : α → Nat) (n : Nat) (h : ∀ x ∈ l, f x = n) :
    (l.map f).sum = l.length * n := by
  induction l with
  | nil => simp
  | cons x t ih =>
    rw [List.map_cons, List.sum_cons, ih fun y hy => h y (by simp [hy]), h x (by simp), List.length_cons,
      Nat.succ_mul, Nat.add_comm]

/-- The number of bytes of an encoded proof of a given shape. -/
theorem serialize_length {p : StarkProof FE} {a b cols trees offsets queries : Nat}
    (S : ProofShape p a b cols trees offsets queries) {bs : Bytes} (h : p.serialize = .ok bs) :
    bs.length = proofBytes a b cols trees offsets queries := by
  unfold StarkProof.serialize at h
  simp only [Outcome.bind_eq_ok, Outcome.pure_eq, Outcome.ok.injEq] at h
  obtain ⟨qs, hqs, rfl⟩ := h
  have hq : qs.length = queries * queryBytes a b := by
    rw [← S.queryCount]
    refine queries_length hqs fun q hq bs hbs => ?_
    obtain ⟨h1, h2, h3, h4⟩ := S.query q hq
    unfold FriDecommitment.serialize at hbs
    cases he : q.layersEvaluations with
    | nil => rw [he] at hbs; cases hbs
    | cons e0 es =>
      rw [he] at hbs h1
      simp only [Outcome.ok.injEq] at hbs
      subst hbs
      simp only [List.length_append, length_beBytes, paths_length, elements_length, h1, h2, h3, h4,
        List.map_map, queryBytes]
      have : ((List.range a).map (pathBytes ∘ fun k => a + b - k)).sum
        = ((List.range a).map fun k => pathBytes (a + b - k)).sum := rfl
      rw [this]
      omega
  have ho : (p.deepPolyOpenings.flatMap (fun o => beBytes 8 o.serialize.length ++ o.serialize)).length
      = queries * openingBytes a b cols trees := by
    rw [← S.openingCount, List.length_flatMap]
    refine constant_sum _ _ _ fun o ho => ?_
    obtain ⟨h1, h2, h3, h4⟩ := S.opening o ho
    have hp : ((o.ldeTraceMerkleProofs.map (·.merklePath.length)).map pathBytes).sum
        = trees * pathBytes (a + b) := by
      rw [List.map_map, ← h2]
      exact constant_sum _ _ _ fun m hm => by simp only [Function.comp_apply, h3 m hm]
    simp only [List.length_append, length_beBytes, DeepPolynomialOpenings.serialize, paths_length,
      serializeMerkleProof_length, length_feToBytesBe, elements_length, h1, h4, hp, openingBytes,
      Nat.succ_mul]
    omega
  simp only [List.length_append, length_beBytes, Frame.serialize, length_feToBytesBe, roots_length,
    elements_length, S.traceRoots, S.frameData, S.friLayers, hq, ho, p.compositionPolyRoot.2, proofBytes]
  omega

end Verif
