import Verif.Model.Backends
import Verif.Spec.Binding
import Verif.Lemmas.Shape
import Verif.Props.Verifier

/-!
# C66: opened values are the committed ones

The statements do not say that there are no collisions, which is false of every hash function with a bounded
output; they say that a wrong opening exhibits one.
-/

namespace Verif.Props
open Verif.Spec
open Verif.Merkle hiding verify

variable {F T Ch : Type} [Field F] [DecidableEq F] {env : Env F T}

/-- Two paths of the same length from different hashes to the same hash combine different pairs to the same
hash. -/
theorem climb_collide (node : Commitment → Commitment → Commitment) (path path' : List Commitment)
    (hlen : path.length = path'.length) (index : Nat) (x x' : Commitment) (hx : x ≠ x')
    (h : climb node path index x = climb node path' index x') :
    ∃ k p q, combinedAt node path index x k = some p ∧ combinedAt node path' index x' k = some q ∧
      p ≠ q ∧ node p.1 p.2 = node q.1 q.2 := by
  induction path generalizing path' index x x' with
  | nil =>
    obtain rfl := List.length_eq_zero_iff.1 hlen.symm
    exact absurd h hx
  | cons s path ih =>
    obtain ⟨s', rest, rfl⟩ : ∃ s' rest, path' = s' :: rest := by
      cases path' with
      | nil => simp at hlen
      | cons a l => exact ⟨a, l, rfl⟩
    simp only [climb] at h
    by_cases hn : (if index % 2 = 0 then node x s else node s x) =
        (if index % 2 = 0 then node x' s' else node s' x')
    · refine ⟨0, _, _, rfl, rfl, ?_, ?_⟩
      · split
        · intro he; exact hx (Prod.mk.inj he).1
        · intro he; exact hx (Prod.mk.inj he).2
      · by_cases h0 : index % 2 = 0
        · simpa [h0] using hn
        · simpa [h0] using hn
    · obtain ⟨k, p, q, h1, h2, h3⟩ := ih rest (by simpa using hlen) (index / 2) _ _ hn h
      exact ⟨k + 1, p, q, h1, h2, h3⟩

/-- Two openings of one root at one index, with paths of the same length, have the same value or exhibit a
collision. -/
theorem C66_two_openings_agree {V : Type} (leaf : V → Commitment)
    (node : Commitment → Commitment → Commitment) (root : Commitment) (index : Nat) (proof proof' : MerkleProof)
    (v v' : V) (hlen : proof.merklePath.length = proof'.merklePath.length)
    (h : Merkle.verify leaf node proof root index v = true) (h' : Merkle.verify leaf node proof' root index v' = true) :
    v = v' ∨ Collide leaf node index proof.merklePath v proof'.merklePath v' := by
  unfold Merkle.verify at h h'
  rw [decide_eq_true_iff] at h h'
  by_cases hv : v = v'
  · exact Or.inl hv
  · right
    by_cases hl : leaf v = leaf v'
    · exact Or.inl ⟨hv, hl⟩
    · exact Or.inr (climb_collide node _ _ hlen index _ _ hl (h.symm.trans h'))

/-- **C66**, when there is a commitment: the rows of a table are committed to exactly when there is one; committing to
no rows panics. -/
theorem C66_committed {F T : Type} [Field F] (env : Env F T) (rows : List (List F)) :
    ((∃ t, batchCommit env rows = .ok t) ↔ rows ≠ []) ∧ (batchCommit env rows = .panic ↔ rows = []) := by
  unfold batchCommit build
  by_cases h : rows = []
  · simp [h]
  · simp [h]

/-- An opening whose path has the height of the tree opens the value of the tree or exhibits a collision with
the tree's own path. -/
theorem opening_of_tree {V : Type} (leaf : V → Commitment) (node : Commitment → Commitment → Commitment)
    {values : List V} {k : Nat} (hl : values.length = 2 ^ k) {t : Tree} (ht : build leaf node values = .ok t)
    {index : Nat} {proof : MerkleProof} {v : V} (hlen : proof.merklePath.length = k)
    (h : Merkle.verify leaf node proof t.root index v = true) :
    ∃ u own, values[index % 2 ^ k]? = some u ∧ t.getProofByPos node (index % 2 ^ k) = some own ∧
      (v = u ∨ Collide leaf node index proof.merklePath v own.merklePath u) := by
  have hpos : index % 2 ^ k < 2 ^ k := Nat.mod_lt _ (by positivity)
  obtain ⟨own, hown, hver⟩ := getProof_ok leaf node values k hl t ht _ hpos
  have hu : values[index % 2 ^ k]? = some values[index % 2 ^ k] := List.getElem?_eq_getElem (by omega)
  refine ⟨_, own, hu, hown, ?_⟩
  exact C66_two_openings_agree leaf node t.root index proof own v _
    (by rw [hlen, path_length hl ht hown]) h (hver index _ rfl hu)

/-- What C66 keeps for the composition polynomial: in an accepted proof whose composition root commits to
`2^k` pairs of values, every opening with a path of length `k` has the values committed at its index, or
exhibits a collision. Missing: the length of the path, which the verifier does not check
(`C66_path_length_unchecked`), and the openings of the trace, whose paths are not checked (C48). -/
theorem C66_composition_openings_partial {PI : Type} {new : AirNew F Ch PI} {pi : PI}
    {options : ProofOptions} {proof : StarkProof F} {air : Air F Ch}
    (hair : new proof.traceLength pi options = .ok air) {a b : Nat} (S : Setting air a b)
    (h : verify env new proof pi options = .ok true)
    {values : List (List F)} {k : Nat} (hl : values.length = 2 ^ k) {t : Tree}
    (ht : build env.hashes.leafBatch env.hashes.node values = .ok t)
    (hroot : proof.compositionPolyRoot = t.root) :
    ∃ d c t', Domain.new env.ta air = .ok d ∧ step1 env air proof d env.tr.init = .ok (c, t') ∧
      ∀ (i : Nat) iota o, c.iotas[i]? = some iota → proof.deepPolyOpenings[i]? = some o →
        o.ldeCompositionPolyProof.merklePath.length = k →
        ∃ u own, values[iota % 2 ^ k]? = some u ∧
          t.getProofByPos env.hashes.node (iota % 2 ^ k) = some own ∧
          ([o.ldeCompositionPolyEvenEvaluation, o.ldeCompositionPolyOddEvaluation] = u ∨
            Collide env.hashes.leafBatch env.hashes.node iota o.ldeCompositionPolyProof.merklePath
              [o.ldeCompositionPolyEvenEvaluation, o.ldeCompositionPolyOddEvaluation] own.merklePath u) := by
  obtain ⟨d, c, t', g, w, h1, h2, -, -, -, -, -, -, -, -, h5⟩ := C45_accepted_checks_partial hair S h
  refine ⟨d, c, t', h1, h2, fun i iota o hi ho hlen => ?_⟩
  obtain ⟨q, hq, hO⟩ := h5 i iota o hi ho
  have := hO.opened
  rw [hroot] at this
  exact opening_of_tree _ _ hl ht hlen this

/-- What C66 keeps for FRI: in an accepted proof whose `j`-th layer root commits to `2^k` values, the two
values a query opens in that layer with paths of length `k` are the ones committed at the index of the query
and half a domain further, or exhibit a collision. Missing: the length of the paths
(`C66_path_length_unchecked`). -/
theorem C66_fri_openings_partial {PI : Type} {new : AirNew F Ch PI} {pi : PI}
    {options : ProofOptions} {proof : StarkProof F} {air : Air F Ch}
    (hair : new proof.traceLength pi options = .ok air) {a b : Nat} (S : Setting air a b)
    (h : verify env new proof pi options = .ok true) :
    ∃ d c t', Domain.new env.ta air = .ok d ∧ step1 env air proof d env.tr.init = .ok (c, t') ∧
      ∀ (j : Nat) (values : List F) (k : Nat) (t : Tree), values.length = 2 ^ k →
        build env.hashes.leaf env.hashes.node values = .ok t →
        proof.friLayersMerkleRoots[j]? = some t.root →
      ∀ (i : Nat) q iota path v pathSym vSym, proof.queryList[i]? = some q → c.iotas[i]? = some iota →
        q.layersAuthPaths[j]? = some path → q.layersEvaluations[j]? = some v →
        q.layersAuthPathsSym[j]? = some pathSym → q.layersEvaluationsSym[j]? = some vSym →
        (path.merklePath.length = k → ∃ u own, values[iota % 2 ^ k]? = some u ∧
          t.getProofByPos env.hashes.node (iota % 2 ^ k) = some own ∧
          (v = u ∨ Collide env.hashes.leaf env.hashes.node iota path.merklePath v own.merklePath u)) ∧
        (pathSym.merklePath.length = k → ∀ s, s = (iota + 2 ^ (a + b - j) / 2) % 2 ^ (a + b - j) →
          ∃ u own, values[s % 2 ^ k]? = some u ∧
          t.getProofByPos env.hashes.node (s % 2 ^ k) = some own ∧
          (vSym = u ∨ Collide env.hashes.leaf env.hashes.node s pathSym.merklePath vSym own.merklePath u)) := by
  obtain ⟨d, c, t', g, w, h1, h2, -, -, -, -, -, -, -, h5, -⟩ := C45_accepted_checks_partial hair S h
  refine ⟨d, c, t', h1, h2, ?_⟩
  intro j values k t hl ht hroot i q iota path v pathSym vSym hq hi hp hv hps hvs
  obtain ⟨ζ, -, H⟩ := (h5 i q iota hq hi).2 j t.root path v pathSym vSym hroot hp hv hps hvs
  refine ⟨fun hlen => opening_of_tree _ _ hl ht hlen H.opened, ?_⟩
  rintro hlen s rfl
  exact opening_of_tree _ _ hl ht hlen H.openedSym

open Examples ExampleAirs in
/-- The hypotheses of `C66_two_openings_agree`: the two paths of the leaves of a small tree, and another
leaf with the same hash. -/
example : ∃ (proof proof' : MerkleProof) (root : Commitment) (v v' : List (ZMod 17)), v ≠ v' ∧
    proof.merklePath.length = proof'.merklePath.length ∧
    Merkle.verify env17.hashes.leafBatch env17.hashes.node proof root 1 v = true ∧
    Merkle.verify env17.hashes.leafBatch env17.hashes.node proof' root 1 v' = true :=
  ⟨⟨[digest 3]⟩, ⟨[digest 1]⟩, digest 7, [2], [3], by decide, rfl, by decide +kernel, by decide +kernel⟩

open Examples ExampleAirs TraceTable in
/-- The hypotheses of `C66_composition_openings_partial` and `C66_fri_openings_partial` are met by an honest
proof: its roots commit to lists of eight values, and its paths have length three. -/
example : ∃ (proof : StarkProof (ZMod 17)) (pairs : List (List (ZMod 17))) (t : Tree)
    (values : List (ZMod 17)) (t' : Tree) (o : DeepPolynomialOpenings (ZMod 17)) (q : FriDecommitment (ZMod 17))
    (path pathSym : MerkleProof),
    fibonacci2 proof.traceLength ⟨1, 1⟩ (options17 3) = .ok air17 ∧ Setting air17 2 1 ∧
    verify env17 fibonacci2 proof ⟨1, 1⟩ (options17 3) = .ok true ∧
    pairs.length = 2 ^ 3 ∧ build env17.hashes.leafBatch env17.hashes.node pairs = .ok t ∧
    proof.compositionPolyRoot = t.root ∧
    values.length = 2 ^ 3 ∧ build env17.hashes.leaf env17.hashes.node values = .ok t' ∧
    proof.friLayersMerkleRoots[0]? = some t'.root ∧
    proof.deepPolyOpenings[0]? = some o ∧ o.ldeCompositionPolyProof.merklePath.length = 3 ∧
    proof.queryList[0]? = some q ∧ q.layersEvaluations.length = 2 ∧ q.layersEvaluationsSym.length = 2 ∧
    q.layersAuthPaths[0]? = some path ∧ path.merklePath.length = 3 ∧
    q.layersAuthPathsSym[0]? = some pathSym ∧ pathSym.merklePath.length = 3 := by
  obtain ⟨proof, hp, hv⟩ := honest17
  obtain ⟨d, c, t, r1, r2, deep, layers, ps, hd, hs, U⟩ :=
    C49_same_challenges (env := env17) (trace := TraceTable.ofRows rows17 2) (a := 2) (b := 1)
      (air := air17) rfl (by norm_num) rfl rfl hp
  obtain ⟨g, w, D⟩ := domain_new setting17.rows setting17.length setting17.blowup hd
  have hext : ∀ (ch : Unit) (aux : TraceTable (ZMod 17)) (bcs : List (BoundaryConstraint (ZMod 17))),
      air17.buildAuxiliaryTrace (ofRows rows17 2) ch = .ok aux → air17.boundaryConstraints ch = .ok bcs →
      SatisfiesExtended air17 rows17 2 ch aux := by
    intro ch aux bcs h1 _
    obtain rfl := Outcome.ok.inj h1
    exact extended17 _
  obtain ⟨t1, hr1⟩ := U.first
  obtain ⟨full, H, boundary, R1, hplen, hfull, hbc, hcolb, hHdeg, hHeval, R2⟩ :=
    honest_rounds (k := 2) D setting17.length setting17.blowup setting17.extended setting17.offset setting17.fits
      (by norm_num) (rows := rows17) rfl (by decide) hr1 (fibonacci2_polynomial _ _ _ air17_eq _) (hext _) U.second
  obtain ⟨aux, -, hshape⟩ := shape_run D setting17.length setting17.blowup setting17.extended setting17.offset
    setting17.fits (by norm_num) (rows := rows17) rfl (by decide) hs U (fibonacci2_polynomial _ _ _ air17_eq _)
    (hext _)
  obtain ⟨-, -, hg1, hg2, hi, -⟩ := step1_inv hs
  have hframe : (round3 air17 d r1 r2 c.z).traceOodEvaluations
      = frameRows r1.tracePolys air17.context.transitionOffsets g c.z := by
    simp only [round3, Frame.getTraceEvaluations, frameRows, List.map_map, D.tracePrimitiveRoot]
    rfl
  obtain ⟨P, hP1, hP2, -⟩ := computeDeep_ok (air := air17) (g := g) (z := c.z) (r2 := r2)
    (r3 := round3 air17 d r1 r2 c.z) hframe rfl rfl hg2 (by rw [hplen, hg1]) (by positivity) R1.degree
    (by rw [R2.even]; exact even_degree _ _ hHdeg) (by rw [R2.odd]; exact odd_degree _ _ hHdeg)
    c.gammaEven c.gammaOdd
  have hdp := U.deep_poly
  rw [D.tracePrimitiveRoot, hP1] at hdp
  obtain rfl := Outcome.ok.inj hdp
  have hlen : layers.length = 2 := by rw [U.fri_count, D.rootOrder]
  obtain ⟨l0, hl0⟩ : ∃ l, layers[0]? = some l := ⟨layers[0], List.getElem?_eq_getElem (by omega)⟩
  have hnew := U.fri_layers 0 l0 hl0
  rw [D.lde_length, U.fri_start, pow_zero, pow_one, Nat.div_one] at hnew
  obtain ⟨t', ht', hnew'⟩ := Fri.layer_new_ok (env := env17) (p := P)
    (h := ((air17.context.proofOptions.cosetOffset : Nat) : ZMod 17)) (w := w) (m := 2 + 1) (by norm_num)
    (lt_of_lt_of_le hP2 (by exact_mod_cast (by norm_num : 2 ^ 2 ≤ 2 ^ (2 + 1)))) D.hw
  obtain rfl := Outcome.ok.inj (hnew'.symm.trans hnew)
  have ho0 : 0 < proof.deepPolyOpenings.length := by rw [hshape.openingCount]; decide
  have hq0 : 0 < proof.queryList.length := by rw [hshape.queryCount]; decide
  obtain ⟨e1, e2, e3, e4⟩ := hshape.query _ (List.getElem_mem hq0)
  have key : ∀ ls : List MerkleProof, ls.map (·.merklePath.length) = (List.range 2).map (fun k => 2 + 1 - k) →
      ∃ p, ls[0]? = some p ∧ p.merklePath.length = 3 := by
    intro ls h
    cases ls with
    | nil => simp at h
    | cons p rest => exact ⟨p, rfl, (List.cons.inj h).1⟩
  obtain ⟨path, hpath, hpl⟩ := key _ e3
  obtain ⟨pathSym, hpathSym, hpls⟩ := key _ e4
  refine ⟨proof, _, _, _, t', _, _, path, pathSym, by rw [U.traceLength]; exact air17_eq, setting17, hv, ?_,
    R2.tree, ?_, ?_, ht', ?_, List.getElem?_eq_getElem ho0, (hshape.opening _ (List.getElem_mem ho0)).1,
    List.getElem?_eq_getElem hq0, e1, e2, hpath, hpl, hpathSym, hpls⟩
  · simp
  · rw [U.compositionRoot, R2.root]
  · simp
  · rw [U.friRoots, List.getElem?_map, hl0]; rfl

omit [Field F] [DecidableEq F] in
/-- C66 is false without a check of the length: leaves and nodes are hashed alike, so the hashes of two
neighbouring leaves that happen to be encodings of field elements can be presented as a pair of values. In a
tree over `2^(k+1)` rows, the path of length `k` above these leaves opens the pair at an index at which the
honest path opens the committed row. -/
theorem C66_path_length_unchecked (keccak : Bytes → Commitment) (toBytes : F → Bytes)
    {values : List (List F)} {k : Nat} (hl : values.length = 2 ^ (k + 1)) {t : Tree}
    (ht : build (keccakHashes keccak toBytes).leafBatch (keccakHashes keccak toBytes).node values = .ok t)
    {index : Nat} (hi : index < 2 ^ k) {x y : List F} (hx : values[2 * index]? = some x)
    (hy : values[2 * index + 1]? = some y) {a b : F}
    (ha : toBytes a = ((keccakHashes keccak toBytes).leafBatch x).val)
    (hb : toBytes b = ((keccakHashes keccak toBytes).leafBatch y).val) :
    (∃ p : MerkleProof, p.merklePath.length = k ∧
      Merkle.verify (keccakHashes keccak toBytes).leafBatch (keccakHashes keccak toBytes).node p t.root index
        [a, b] = true) ∧
    ∃ (p : MerkleProof) (v : List F), p.merklePath.length = k + 1 ∧ values[index]? = some v ∧
      Merkle.verify (keccakHashes keccak toBytes).leafBatch (keccakHashes keccak toBytes).node p t.root index
        v = true := by
  have hpow : 2 ^ (k + 1) = 2 * 2 ^ k := by ring
  constructor
  · rw [build_ok _ _ values _ hl] at ht
    obtain rfl := Outcome.ok.inj ht
    set leaf := (keccakHashes keccak toBytes).leafBatch with hleaf
    set node := (keccakHashes keccak toBytes).node with hnode
    refine ⟨⟨pathOf node k (parents node (values.map leaf)) index⟩, pathOf_length _ _ _ _, ?_⟩
    unfold Merkle.verify
    rw [decide_eq_true_iff]
    have hab : leaf [a, b] = node (leaf x) (leaf y) := by
      show keccak _ = keccak _
      simp only [List.flatMap_cons, List.flatMap_nil, List.append_nil]
      rw [ha, hb]
    rw [hab]
    refine (climb_pathOf node k (parents node (values.map leaf)) ?_ index index hi
      (Nat.mod_eq_of_lt hi) _ ?_).symm
    · rw [parents_length, List.length_map, hl]; omega
    · exact parents_getElem? node _ index _ _ (by rw [List.getElem?_map, hx]; rfl)
        (by rw [List.getElem?_map, hy]; rfl)
  · obtain ⟨p, hp, hver⟩ := getProof_ok _ _ values _ hl t ht index (by omega)
    have hv : values[index]? = some values[index] := List.getElem?_eq_getElem (by omega)
    exact ⟨p, _, path_length hl ht hp, hv, hver index _ (Nat.mod_eq_of_lt (by omega)) hv⟩

/-- A toy hash: the sum of the bytes, weighted by their positions. -/
def toyHash (l : Bytes) : Commitment :=
  ⟨beBytes 32 ((l.zipIdx.map fun e => (e.2 + 1) * e.1.toNat).sum), by simp⟩

/-- The hypotheses of `C66_path_length_unchecked` hold for a tree over the rows `[1, 2]` and `[3, 4]`, and the
pair it opens at the index 0 is another one. -/
example : ∃ (values : List (List FE)) (t : Tree) (x y : List FE) (a b : FE), values.length = 2 ^ (0 + 1) ∧
    build (keccakHashes toyHash feToBytesBe).leafBatch (keccakHashes toyHash feToBytesBe).node values = .ok t ∧
    0 < 2 ^ 0 ∧ values[2 * 0]? = some x ∧ values[2 * 0 + 1]? = some y ∧
    feToBytesBe a = ((keccakHashes toyHash feToBytesBe).leafBatch x).val ∧
    feToBytesBe b = ((keccakHashes toyHash feToBytesBe).leafBatch y).val ∧ [a, b] ≠ x := by
  refine ⟨[[1, 2], [3, 4]], _, [1, 2], [3, 4], 160, 352, rfl, build_ok _ _ _ 1 rfl, by decide, rfl, rfl,
    ?_, ?_, ?_⟩
  · decide +kernel
  · decide +kernel
  · decide +kernel

end Verif.Props
