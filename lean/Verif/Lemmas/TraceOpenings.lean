import Verif.Lemmas.Deep

/-!
# The trees of the first round and the openings of the trace
-/

namespace Verif
open Polynomial Spec TraceTable

variable {F T Ch : Type} [Field F] [DecidableEq F]
variable {env : Env F T} {d : Domain F} {a b : Nat} {h g w : F}

/-- The trees of the first round hold the rows of the extended main trace and of the extended auxiliary trace. -/
theorem round1_commitments (D : IsDomain env.ta d a b h g w) {air : Air F Ch} {rows : List (List F)} {k : Nat}
    (hk : 0 < k) (hrows : rows.length = 2 ^ a) (hr : ∀ r ∈ rows, r.length = k) {t t' : T} {r1 : Round1 F Ch}
    (hr1 : round1 env air (ofRows rows k) d t = .ok (r1, t'))
    (haux : ∀ aux, air.buildAuxiliaryTrace (ofRows rows k) r1.rapChallenges = .ok aux → 0 < aux.nCols →
      ∃ auxRows, aux = ofRows auxRows aux.nCols ∧ auxRows.length = 2 ^ a ∧ ∀ r ∈ auxRows, r.length = aux.nCols) :
    ∃ polys tree, polys.length = k ∧ Merkle.build env.hashes.leafBatch env.hashes.node
        ((List.range (2 ^ (a + b))).map fun i => polys.map fun p => p.eval (w ^ i * h)) = .ok tree ∧
      r1.ldeTrace = ldeTable r1.tracePolys w h (2 ^ (a + b)) ∧
      (∃ aux, air.buildAuxiliaryTrace (ofRows rows k) r1.rapChallenges = .ok aux ∧
        r1.ldeTraceMerkleRoots.length = if aux.nCols = 0 then 1 else 2) ∧
      ((r1.tracePolys = polys ∧ r1.ldeTraceMerkleTrees = [tree] ∧ r1.ldeTraceMerkleRoots = [tree.root]) ∨
        ∃ polys' tree', Merkle.build env.hashes.leafBatch env.hashes.node
            ((List.range (2 ^ (a + b))).map fun i => polys'.map fun p => p.eval (w ^ i * h)) = .ok tree' ∧
          r1.tracePolys = polys ++ polys' ∧ r1.ldeTraceMerkleTrees = [tree, tree'] ∧
          r1.ldeTraceMerkleRoots = [tree.root, tree'.root]) := by
  obtain ⟨polys, tree, hm1, hm2, -, -, hm5⟩ := interpolateAndCommit_ok D hk hrows hr t
  have hne : polys ≠ [] := by
    intro h0
    rw [h0] at hm2
    simp at hm2
    omega
  refine ⟨polys, tree, hm2, hm5, ?_⟩
  unfold round1 at hr1
  simp only [hm1, Outcome.bind_ok, Outcome.bind_eq_ok] at hr1
  obtain ⟨aux, haux', hr1⟩ := hr1
  split at hr1
  · rw [newFromCols_values hne] at hr1
    simp only [Outcome.bind_ok, Outcome.pure_eq, Outcome.ok.injEq, Prod.mk.injEq] at hr1
    obtain ⟨rfl, rfl⟩ := hr1
    rename_i h0
    exact ⟨rfl, ⟨aux, haux', by rw [if_pos h0]; rfl⟩, .inl ⟨rfl, rfl, rfl⟩⟩
  · rename_i h0
    simp only [Outcome.bind_eq_ok, Outcome.pure_eq, Outcome.ok.injEq, Prod.mk.injEq] at hr1
    obtain ⟨⟨⟨polysA, evA, treeA, rootA⟩, tA⟩, hA, table, htable, rfl, rfl⟩ := hr1
    have hpos : 0 < aux.nCols := Nat.pos_of_ne_zero h0
    obtain ⟨auxRows, hauxRows, hlen, hwidth⟩ := haux aux haux' hpos
    obtain ⟨polys', tree', ha1, ha2, -, -, ha5⟩ := interpolateAndCommit_ok D hpos hlen hwidth
      (buildRapChallenges env air (env.tr.append t tree.root.val)).2
    rw [← hauxRows, hA] at ha1
    simp only [Outcome.ok.injEq, Prod.mk.injEq] at ha1
    obtain ⟨⟨rfl, rfl, rfl, rfl⟩, rfl⟩ := ha1
    rw [← List.map_append, newFromCols_values (by simp [hne])] at htable
    obtain rfl := Outcome.ok.inj htable
    exact ⟨rfl, ⟨aux, haux', by rw [if_neg h0]; rfl⟩, .inr ⟨_, _, ha5, rfl, rfl, rfl⟩⟩

/-- The path to an index of a tree of rows is right. -/
theorem path_of_rows {polys : List F[X]} {tree : Merkle.Tree} (ht : Merkle.build env.hashes.leafBatch env.hashes.node
      ((List.range (2 ^ (a + b))).map fun i => polys.map fun p => p.eval (w ^ i * h)) = .ok tree) {iota : Nat}
    (hi : iota < 2 ^ (a + b)) {path : MerkleProof}
    (hp : (Outcome.ofOptionUnwrap (tree.getProofByPos env.hashes.node iota) : Outcome Empty _) = .ok path) :
    Merkle.verify env.hashes.leafBatch env.hashes.node path tree.root iota (polys.map fun p => p.eval (w ^ iota * h))
      = true := by
  obtain ⟨path', h1, h2⟩ := Merkle.getProof_ok env.hashes.leafBatch env.hashes.node _ (a + b) (by simp) _ ht iota hi
  rw [h1] at hp
  obtain rfl := Outcome.ok.inj hp
  refine h2 iota _ (Nat.mod_eq_of_lt hi) ?_
  rw [List.getElem?_map, List.getElem?_range hi]
  rfl

/-- The paths and the row of an opening. -/
theorem openDeepAt_inv (D : IsDomain env.ta d a b h g w) {r1 : Round1 F Ch} {r2 : Round2 F}
    (hlde : r1.ldeTrace = ldeTable r1.tracePolys w h (2 ^ (a + b))) {iota : Nat} (hi : iota < 2 ^ (a + b))
    {o : DeepPolynomialOpenings F} (ho : openDeepAt env d r1 r2 iota = .ok o) :
    mapOutcome (fun t : Merkle.Tree => (Outcome.ofOptionUnwrap (t.getProofByPos env.hashes.node iota) : Outcome Empty _))
        r1.ldeTraceMerkleTrees = .ok o.ldeTraceMerkleProofs ∧
      o.ldeTraceEvaluations = r1.tracePolys.map fun p => p.eval (w ^ iota * h) := by
  have hrow : (r1.ldeTrace.getRow iota : Outcome Empty _)
      = .ok (r1.tracePolys.map fun p => p.eval (w ^ iota * h)) := by
    rw [hlde]
    have := TraceTable.getRow_ofRows (ε := Empty) ((List.range (2 ^ (a + b))).map fun i =>
      r1.tracePolys.map fun p => p.eval (w ^ i * h)) r1.tracePolys.length (by
        intro r hr
        obtain ⟨i, -, rfl⟩ := List.mem_map.mp hr
        simp) iota (by simpa using hi)
    refine Eq.trans this ?_
    simp
  unfold openDeepAt at ho
  rw [if_neg (by rw [D.lde_length]; positivity), D.lde_length, Nat.mod_eq_of_lt hi] at ho
  simp only [Outcome.bind_eq_ok, hrow, Outcome.ok.injEq, Outcome.pure_eq] at ho
  obtain ⟨_, _, _, _, _, _, proofs, hp, row, rfl, rfl⟩ := ho
  exact ⟨hp, rfl⟩

end Verif
