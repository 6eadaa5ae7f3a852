import Verif.Props.ShapedForgery
import Verif.Props.RandomForgery
import Verif.Lemmas.WeightTalk

/-!
# C94 for random hash functions
-/

namespace Verif.Props
open Runner Cli Verif.Spec Random Proximity CairoAir ExecTrace Transcript TraceTable
variable {T : Type} {env : Env FE T}

/-- For random hash functions a complete proof is accepted, except with small probability. -/
theorem shaped_random_hash (hta : env.ta = starkRoots) (hof : ∀ d, randomnessToField 252 d = .ok (env.ofDigest d))
    (pi : PublicInputs) (hsteps : pi.numSteps ≠ 0) (hmin : pi.rangeCheckMin ≠ none) (hmax : pi.rangeCheckMax ≠ none)
    {a : Nat} (ha : 1 ≤ a) (hab : a + 2 < 64) {N n : Nat}
    (hN : N = 3 + 2 * 8 + 2 * (if pi.memorySegments = [] then 49 else 50) + 5) (hn : n < 2 ^ 64 - 1)
    (root0 root1 : Commitment) (path0 path1 : MerkleProof) (hp0 : path0.merklePath.length = a + 2)
    (hp1 : path1.merklePath.length = a + 2) :
    ∃ L₀, ∀ L ≥ L₀,
    1 - (pi.publicMemory.length / 2 ^ 251 + 2 * ((2 ^ (a + 2) + 2 ^ a) / 2 ^ 251) + 2 ^ (a + 2) / 2 ^ 251
        + 2 ^ 256 * (1 / 2) ^ n + N * (N + 1) / 2 / 2 ^ 256)
      ≤ probability ((Message L → Commitment) × (WorkMessage → Commitment)) fun ω =>
          ∃ proof, proof.nonce < 2 ^ 64 ∧ proof.ldeTraceMerkleRoots = [root0, root1] ∧
            (∀ o ∈ proof.deepPolyOpenings, o.ldeTraceMerkleProofs = [path0, path1]) ∧
            ProofShape proof a 2 (traceColumns (hasRcBuiltin pi)) 2 2 3 ∧
            verifyCairoProof (hashing env ω.1 ω.2) proof pi ProofOptions.defaultTestOptions = .ok true := by
  have := Prog.commitment_nonempty
  have S := cairo_setting ha pi
  obtain ⟨s, hs⟩ : ∃ s, s = 3 + 2 * 8 + 2 * (if pi.memorySegments = [] then 49 else 50) := ⟨_, rfl⟩
  have hnt : s = (air (2 ^ a) pi ProofOptions.defaultTestOptions).numRapChallenges + 2 * 8
      + 2 * (air (2 ^ a) pi ProofOptions.defaultTestOptions).context.numTransitionConstraints := hs.trans (draws_eq rfl)
  rw [← hs] at hN
  obtain ⟨d, hd⟩ := domain_exists (ta := env.ta) S.rows S.length S.blowup hab (by rw [hta]; show _ ≤ 192; omega)
  obtain ⟨g, w, D⟩ := domain_new S.rows S.length S.blowup hd
  have hd1 : d.ldeRootsOfUnityCoset.length = 2 ^ (a + 2) := D.lde_length
  have hd2 : d.traceRootsOfUnity.length = 2 ^ a := by rw [D.traceRoots, List.length_map, List.length_range]
  have hpoint : probability Commitment (fun x => env.ofDigest x ∈ d.ldeRootsOfUnityCoset ++ d.traceRootsOfUnity)
      ≤ (2 ^ (a + 2) + 2 ^ a) / 2 ^ 251 := by
    refine (probability_challenge hof _).trans ?_
    rw [List.length_append, hd1, hd2]
    push_cast
    rfl
  obtain ⟨d0⟩ := Prog.commitment_nonempty
  obtain ⟨tree, htree⟩ : ∃ tree, Merkle.build env.hashes.leafBatch env.hashes.node
      (List.replicate (2 ^ (a + 2)) [(0 : FE), 0]) = .ok tree :=
    ⟨_, Merkle.build_ok _ _ _ (a + 2) List.length_replicate⟩
  let rows : List (List FE) := List.replicate 2 (List.replicate (traceColumns (hasRcBuiltin pi)) 0)
  have hrw : ∀ r ∈ rows, r.length = traceColumns (hasRcBuiltin pi) := fun r hr => by
    rw [(List.mem_replicate.mp hr).2, List.length_replicate]
  let frame : Frame FE := ⟨rows.flatten, traceColumns (hasRcBuiltin pi)⟩
  let A := air (2 ^ a) pi ProofOptions.defaultTestOptions
  let even : RAPChallenges FE → List (BoundaryConstraint FE) → List (FE × FE) × List (FE × FE) → FE → FE :=
    fun ch bcs coeffs z => fittingEven A g rows (constraintPolys (hasRcBuiltin pi) ch) bcs coeffs 0 z
  obtain ⟨p, hp1', hp2, hp3, hp4⟩ := Rep.toWeights_rep env A d root0 root1 tree.root even 0 frame boundary_count 1
  have hNp : A.numRapChallenges + 2 * 8 + 2 * A.context.numTransitionConstraints + 1 + 2
      + A.context.transitionOffsets.length = N := by
    rw [hN, hnt]
    rfl
  rw [hNp] at hp1'
  rw [pow_one] at hp3
  have e5 := hp3.trans hpoint
  clear hp3
  obtain ⟨L₁, hL₁⟩ := probability_no_nonces env (g := 1) (by norm_num) hn
  refine ⟨max (p.width 0) L₁, fun L hL => ?_⟩
  have e6 := hL₁ L ((le_max_right _ _).trans hL)
  replace hL := (le_max_left _ _).trans hL
  rw [probability_not, sub_le_sub_iff_left]
  let B : Option (Outcome Empty (FE × List FE)) → Prop := fun o => ∀ z row, o = some (.ok (z, row)) →
    ∃ x ∈ d.ldeRootsOfUnityCoset, openedWeight g z x row = 0
  let place : (Fin N → Commitment) → (Fin 0 → Commitment) → Env FE Nat := fun δ κ =>
    answering env (fun _ => d0) δ (r := 0) Fin.elim0 κ
  have h1 : ∀ δ κ i b, (place δ κ).tr.append i b = i := fun _ _ _ _ => rfl
  have h2 : ∀ δ κ i (h : i < N), (place δ κ).tr.challenge i = (δ ⟨i, h⟩, i + 1) := fun δ κ i h => by
    show (if h : i < N then δ ⟨i, h⟩ else _, i + 1) = _
    rw [dif_pos h]
  have h3 : ∀ δ κ x (h : Prog.label x < 0), (place δ κ).keccak x = κ ⟨Prog.label x, h⟩ := fun δ κ x h =>
    absurd h (Nat.not_lt_zero _)
  have e1 := Prog.transfer env hp1' hp2 hL B (tr := fun δ κ => (place δ κ).tr) (K := fun δ κ => (place δ κ).keccak)
    h1 h2 h3
  have e2 := Prog.probability_stop hp1' hp2 (tr := fun δ κ => (place δ κ).tr) (K := fun δ κ => (place δ κ).keccak)
    h1 h2 h3
  let dens : FE → List FE := fun α => pi.publicMemory.map fun e => e.1 + α * e.2
  let vals : FE → FE → List FE := fun z γ1 =>
    d.ldeRootsOfUnityCoset.map fun x => -(γ1 / (x - z * g)) * (x - z)
  let bad1 : (Fin N → Commitment) → Prop := fun ρ =>
    env.ofDigest (ρ ⟨1, by omega⟩) ∈ dens (env.ofDigest (ρ ⟨0, by omega⟩))
  let bad2 : (Fin N → Commitment) → Prop := fun ρ =>
    env.ofDigest (ρ ⟨s, by omega⟩) ∈ d.ldeRootsOfUnityCoset ++ d.traceRootsOfUnity
  let bad3 : (Fin N → Commitment) → Prop := fun ρ =>
    env.ofDigest (ρ ⟨s + 3, by omega⟩) ∈ vals (env.ofDigest (ρ ⟨s, by omega⟩)) (env.ofDigest (ρ ⟨s + 4, by omega⟩))
  have b1 : probability (Fin N → Commitment) bad1 ≤ pi.publicMemory.length / 2 ^ 251 := by
    refine probability_coordinate ⟨1, by omega⟩ (by positivity) fun l => ?_
    have h0 : ∀ x : Commitment, Function.update l (⟨1, by omega⟩ : Fin N) x ⟨0, by omega⟩ = l ⟨0, by omega⟩ :=
      fun x => Function.update_of_ne (by simp) _ _
    have hd0 : (dens (env.ofDigest (l ⟨0, by omega⟩))).length = pi.publicMemory.length := List.length_map _
    have hc := probability_challenge hof (dens (env.ofDigest (l ⟨0, by omega⟩)))
    rw [hd0] at hc
    simp only [bad1, Function.update_self, h0]
    exact hc
  have b2 : probability (Fin N → Commitment) bad2 ≤ (2 ^ (a + 2) + 2 ^ a) / 2 ^ 251 := by
    refine probability_coordinate ⟨s, by omega⟩ (by positivity) fun l => ?_
    simp only [bad2, Function.update_self]
    exact hpoint
  have b3 : probability (Fin N → Commitment) bad3 ≤ 2 ^ (a + 2) / 2 ^ 251 := by
    refine probability_coordinate ⟨s + 3, by omega⟩ (by positivity) fun l => ?_
    have h0 : ∀ x : Commitment, Function.update l (⟨s + 3, by omega⟩ : Fin N) x ⟨s, by omega⟩ = l ⟨s, by omega⟩ :=
      fun x => Function.update_of_ne (by simp) _ _
    have h4 : ∀ x : Commitment, Function.update l (⟨s + 3, by omega⟩ : Fin N) x ⟨s + 4, by omega⟩
        = l ⟨s + 4, by omega⟩ := fun x => Function.update_of_ne (by simp) _ _
    have hc := probability_challenge hof (vals (env.ofDigest (l ⟨s, by omega⟩)) (env.ofDigest (l ⟨s + 4, by omega⟩)))
    rw [List.length_map, hd1] at hc
    push_cast at hc
    simp only [bad3, Function.update_self, h0, h4]
    exact hc
  have e4 : probability ((Fin N → Commitment) × (Fin 0 → Commitment))
      (fun ω => B ((p.run (place ω.1 ω.2).tr (place ω.1 ω.2).keccak 0).map Prod.fst))
      ≤ (pi.publicMemory.length / 2 ^ 251 + (2 ^ (a + 2) + 2 ^ a) / 2 ^ 251 + 2 ^ (a + 2) / 2 ^ 251)
        + (2 ^ (a + 2) + 2 ^ a) / 2 ^ 251 := by
    refine (probability_mono (Q := fun ω : (Fin N → Commitment) × (Fin 0 → Commitment) =>
      ((bad1 ω.1 ∨ bad2 ω.1) ∨ bad3 ω.1) ∨ p.run (place ω.1 ω.2).tr (place ω.1 ω.2).keccak 0 = none) ?_).trans
      ((probability_or _ _).trans (add_le_add
        ((probability_fst (Y := Fin 0 → Commitment) fun ρ => (bad1 ρ ∨ bad2 ρ) ∨ bad3 ρ).trans
          ((probability_or _ _).trans (add_le_add ((probability_or _ _).trans (add_le_add b1 b2)) b3)))
        (e2.trans e5)))
    rintro ⟨δ, κ⟩ hB
    by_contra hgood
    simp only [not_or] at hgood
    obtain ⟨⟨⟨g1, g2⟩, g3⟩, g4⟩ := hgood
    have hcall : ∀ i (hi : i < N), ((place δ κ).tr.challenge i).1 = δ ⟨i, hi⟩ := fun i hi => by rw [h2 δ κ i hi]
    have hch : challengesAfter (place δ κ) A root0
        = ⟨env.ofDigest (δ ⟨0, by omega⟩), env.ofDigest (δ ⟨1, by omega⟩), env.ofDigest (δ ⟨2, by omega⟩)⟩ := by
      unfold challengesAfter buildRapChallenges
      rw [show place δ κ = answering env (fun _ => d0) δ (r := 0) Fin.elim0 κ from rfl, answering_samples]
      show (⟨env.ofDigest ((place δ κ).tr.challenge (0 + 0)).1, env.ofDigest ((place δ κ).tr.challenge (0 + 1)).1,
        env.ofDigest ((place δ κ).tr.challenge (0 + 2)).1⟩ : RAPChallenges FE) = _
      rw [hcall _ (by omega), hcall _ (by omega), hcall _ (by omega)]
    obtain ⟨cs, hcs⟩ := boundary_exists pi hsteps hmin hmax (n := 2 ^ a) (by positivity)
      ⟨env.ofDigest (δ ⟨0, by omega⟩), env.ofDigest (δ ⟨1, by omega⟩), env.ofDigest (δ ⟨2, by omega⟩)⟩
      (fun e he hc => g1 (List.mem_map.2 ⟨e, he, hc.symm⟩))
    have hbefore : beforePoint (place δ κ) A [root0, root1] cs.length tree.root = s := by
      rw [boundary_count (options := ProofOptions.defaultTestOptions) _ cs hcs]
      exact (answering_beforePoint env (fun _ => d0) δ _ κ ..).trans hnt.symm
    have hout : env.ofDigest ((place δ κ).tr.challenge s).1 ∉ d.ldeRootsOfUnityCoset ++ d.traceRootsOfUnity := by
      rw [hcall _ (by omega)]
      exact g2
    obtain ⟨⟨z, t6⟩, hz⟩ : ∃ y, (place δ κ).tr.sampleZOod env.ofDigest d.ldeRootsOfUnityCoset d.traceRootsOfUnity s
        = some y := by
      rw [← Option.ne_none_iff_exists']
      rw [Transcript.sampleZOod_step, if_neg hout]
      exact fun hc => by cases hc
    obtain ⟨hcz, rfl⟩ := answering_first env (fun _ => d0) δ _ κ hout hz
    rw [show ((answering env (fun _ => d0) δ (r := 0) Fin.elim0 κ).tr.challenge s).1 = δ ⟨s, by omega⟩ from
      hcall s (by omega)] at hcz
    obtain ⟨t7, h7⟩ := appendFrame_exists (env := place δ κ) S.fits.columns_pos hrw
      ((place δ κ).appendField ((place δ κ).appendField (s + 1) (even (challengesAfter (place δ κ) A root0) cs
        (coefficientsAfter (place δ κ) cs.length A.context.numTransitionConstraints
          (transcriptRound1 (place δ κ) A [root0, root1] (place δ κ).tr.init)) z)) 0)
    obtain rfl : t7 = s + 1 := answering_appendFrame env (fun _ => d0) δ _ κ h7
    have hsam : (place δ κ).samples A.context.transitionOffsets.length
        ((place δ κ).sample ((place δ κ).sample (s + 1)).2).2
        = ([env.ofDigest (δ ⟨s + 3, by omega⟩), env.ofDigest (δ ⟨s + 4, by omega⟩)], s + 5) := by
      show (place δ κ).samples 2 (s + 1 + 1 + 1) = _
      rw [show place δ κ = answering env (fun _ => d0) δ (r := 0) Fin.elim0 κ from rfl, answering_samples]
      show ([env.ofDigest ((place δ κ).tr.challenge (s + 1 + 1 + 1 + 0)).1,
        env.ofDigest ((place δ κ).tr.challenge (s + 1 + 1 + 1 + 1)).1], _) = _
      rw [hcall _ (by omega), hcall _ (by omega)]
    have hok := Rep.toWeights_ok (e := place δ κ) (air := A) (d := d) (root0 := root0) (root1 := root1)
      (compositionRoot := tree.root) (even := even) (odd := 0) (frame := frame).2
      ⟨cs, s + 1, s + 1, by rw [hch]; exact hcs, by rw [hbefore]; exact hz, h7, hsam⟩
    obtain ⟨⟨o, t'⟩, hrun⟩ := Option.ne_none_iff_exists'.1 g4
    have ho := hp4 Nat (place δ κ).tr (place δ κ).keccak 0 o t' hrun
    have ho2 : (Outcome.ok ((z, [env.ofDigest (δ ⟨s + 3, by omega⟩), env.ofDigest (δ ⟨s + 4, by omega⟩)]), s + 5)
        : Outcome Empty ((FE × List FE) × Nat)) = o >>= fun x => .ok (x, t') := hok.symm.trans ho
    cases o with
    | err e => exact e.elim
    | panic => cases ho2
    | ok y =>
      obtain rfl := congrArg Prod.fst (Outcome.ok.inj ho2)
      obtain ⟨x, hmem, h0⟩ := hB _ _ (by rw [hrun]; rfl)
      have hzx : x - z ≠ 0 := by
        rw [sub_ne_zero, hcz]
        rintro rfl
        exact g2 (List.mem_append_left _ hmem)
      apply g3
      refine List.mem_map.mpr ⟨x, hmem, ?_⟩
      have h0' : env.ofDigest (δ ⟨s + 3, by omega⟩) / (x - z) + env.ofDigest (δ ⟨s + 4, by omega⟩) / (x - z * g) = 0 := by
        simpa [openedWeight, List.range_succ] using h0
      rw [← hcz, ← eq_neg_of_add_eq_zero_left h0', div_mul_cancel₀ _ hzx]
  rw [card_commitment] at e1
  rw [show (1 - 1 / 2 ^ 1 : ℚ) = 1 / 2 by norm_num] at e6
  refine le_trans (probability_mono (Q := fun ω : (Message L → Commitment) × (WorkMessage → Commitment) =>
    B ((p.run (hashing env ω.1 ω.2).tr (hashing env ω.1 ω.2).keccak []).map Prod.fst) ∨
    ∃ seed, Grinding.generateNonce (hashing env ω.1 ω.2).keccak seed 1 = none) fun ω hω => ?_)
    ((probability_or _ _).trans ((add_le_add e1 e6).trans ?_))
  · by_contra hc
    rw [not_or] at hc
    obtain ⟨hc1, hc2⟩ := hc
    simp only [B, not_forall] at hc1
    obtain ⟨z, row, hx, hw⟩ := hc1
    obtain ⟨⟨o, t'⟩, hrun, ho⟩ := Option.map_eq_some_iff.1 hx
    have ho' := hp4 Bytes (hashing env ω.1 ω.2).tr (hashing env ω.1 ω.2).keccak [] o t' hrun
    dsimp only at ho'
    rw [over_hashing, show o = .ok (z, row) from ho] at ho'
    obtain ⟨cs, t6, t7, hcs, hz, h7, hrow⟩ := Rep.toWeights_ok (e := hashing env ω.1 ω.2).1 ho'
    obtain ⟨proof, c, t, u6, u7, g', tree', h1, hframe, -, hnonce, h5, h6, -, h8, h9, h10, h11, h12, h13, h14, h15⟩ :=
      shaped_forgery_at (env := hashing env ω.1 ω.2) (new := CairoAir.new) (pi := pi) S hab
      (fun w z hw i => square_notMem' (by omega) (hw : env.ta.root (a + 2) = some w) three_not_square
        (show a + 2 < env.ta.adicity by rw [hta]; show _ < 192; omega) z i) rfl rfl
      (air_polynomial _ _ _) root0 [root1] (bcs := cs) hcs (boundary_columns hcs)
      (d := d) hd (fun tree' h' hnone => by
        obtain rfl : tree = tree' := Outcome.ok.inj (htree.symm.trans h')
        rw [hz] at hnone
        cases hnone)
      (fun seed hs => hc2 ⟨seed, hs⟩)
      (rows := rows) rfl hrw 0
      (paths := [path0, path1]) rfl (fun p hp => by
        rcases List.mem_cons.mp hp with rfl | hp
        · exact hp0
        · rw [List.mem_singleton.mp hp]
          exact hp1)
    refine hω ⟨proof, hnonce, h1, h5, h6, h15 fun iota _ x hx => ?_⟩
    obtain rfl : g = g' := Option.some.inj (D.hg.symm.trans h8)
    obtain rfl : tree = tree' := Outcome.ok.inj (htree.symm.trans h12)
    rw [h13, hz] at h9
    obtain ⟨hcz, rfl⟩ := Prod.mk.inj (Option.some.inj h9)
    rw [hframe, h14, ← hcz] at h10
    obtain rfl : t7 = u7 := Outcome.ok.inj (h7.symm.trans h10)
    have hhead : c.traceTermCoeffs.head? = some row := by
      rw [h11]
      obtain ⟨k, hk⟩ : ∃ k, (air (2 ^ a) pi ProofOptions.defaultTestOptions).context.traceColumns = k + 1 :=
        Nat.exists_eq_succ_of_ne_zero S.fits.columns_pos.ne'
      rw [hk]
      exact congrArg (fun r => some r.1) hrow
    refine ⟨row, List.mem_of_head? hhead, fun h0 => hw ⟨x, List.mem_of_getElem? hx, ?_⟩⟩
    rw [hcz]
    exact h0
  · linarith

/-- **C94** refuted for random hash functions: for every claimed run, of any length, whose public inputs have a step and
bounds for the range check, and for any two commitments to the trace and any authentication paths, a complete proof is
accepted except with small probability. The hash functions are drawn as in `C81_random_hash`. The bound is the sum of
`|public memory| / 2^251`, of twice `(2^(a+2) + 2^a) / 2^251` for the out-of-domain point, of `2^(a+2) / 2^251` for the
coefficients of the first column, of `2^256 (1/2)^n` for a seed for which `n` nonces do no proof of work, and of
`N (N + 1) / 2 / 2^256` for the transcript to come back to a state it has been in. -/
theorem C94_forged_random_hash (hta : env.ta = starkRoots)
    (hof : ∀ d, randomnessToField 252 d = .ok (env.ofDigest d))
    (pi : PublicInputs) (hsteps : pi.numSteps ≠ 0) (hmin : pi.rangeCheckMin ≠ none) (hmax : pi.rangeCheckMax ≠ none)
    {a : Nat} (ha : 1 ≤ a) (hab : a + 2 < 64) {N n : Nat}
    (hN : N = 3 + 2 * 8 + 2 * (if pi.memorySegments = [] then 49 else 50) + 5) (hn : n < 2 ^ 64 - 1)
    (root0 root1 : Commitment) (path0 path1 : MerkleProof) (hp0 : path0.merklePath.length = a + 2)
    (hp1 : path1.merklePath.length = a + 2) :
    ∃ L₀, ∀ L ≥ L₀,
    1 - (pi.publicMemory.length / 2 ^ 251 + 2 * ((2 ^ (a + 2) + 2 ^ a) / 2 ^ 251) + 2 ^ (a + 2) / 2 ^ 251
        + 2 ^ 256 * (1 / 2) ^ n + N * (N + 1) / 2 / 2 ^ 256)
      ≤ probability ((Message L → Commitment) × (WorkMessage → Commitment)) fun ω =>
          ∃ proof, proof.ldeTraceMerkleRoots = [root0, root1] ∧
            (∀ o ∈ proof.deepPolyOpenings, o.ldeTraceMerkleProofs = [path0, path1]) ∧
            ProofShape proof a 2 (traceColumns (hasRcBuiltin pi)) 2 2 3 ∧
            verifyCairoProof (hashing env ω.1 ω.2) proof pi ProofOptions.defaultTestOptions = .ok true := by
  obtain ⟨L₀, h⟩ := shaped_random_hash hta hof pi hsteps hmin hmax ha hab hN hn root0 root1 path0 path1 hp0 hp1
  exact ⟨L₀, fun L hL => (h L hL).trans (probability_mono fun _ ⟨proof, _, h⟩ => ⟨proof, h⟩)⟩

/-- **C94** refuted for random hash functions and files: the same for a file, as long as the file that the command `prove`
writes for a run of that length, and the command `verify`. -/
theorem C94_forged_file_random_hash (hta : env.ta = starkRoots)
    (hof : ∀ d, randomnessToField 252 d = .ok (env.ofDigest d))
    (pi : PublicInputs) (hwf : pi.WF) (hsize : pi.publicMemory.length < 2 ^ 57)
    (hsteps : pi.numSteps ≠ 0) (hmin : pi.rangeCheckMin ≠ none) (hmax : pi.rangeCheckMax ≠ none)
    {a : Nat} (ha : 1 ≤ a) (hab : a + 2 < 64) {N n : Nat}
    (hN : N = 3 + 2 * 8 + 2 * (if pi.memorySegments = [] then 49 else 50) + 5) (hn : n < 2 ^ 64 - 1)
    (root0 root1 : Commitment) (path0 path1 : MerkleProof) (hp0 : path0.merklePath.length = a + 2)
    (hp1 : path1.merklePath.length = a + 2) :
    ∃ L₀, ∀ L ≥ L₀,
    1 - (pi.publicMemory.length / 2 ^ 251 + 2 * ((2 ^ (a + 2) + 2 ^ a) / 2 ^ 251) + 2 ^ (a + 2) / 2 ^ 251
        + 2 ^ 256 * (1 / 2) ^ n + N * (N + 1) / 2 / 2 ^ 256)
      ≤ probability ((Message L → Commitment) × (WorkMessage → Commitment)) fun ω =>
          ∃ file proof, readProofFile file = .ok (proof, pi) ∧ proof.ldeTraceMerkleRoots = [root0, root1] ∧
            (∀ o ∈ proof.deepPolyOpenings, o.ldeTraceMerkleProofs = [path0, path1]) ∧
            ProofShape proof a 2 (traceColumns (hasRcBuiltin pi)) 2 2 3 ∧
            file.length = 8 + proofBytes a 2 (traceColumns (hasRcBuiltin pi)) 2 2 3 + pi.serialize.length ∧
            ∀ (vm : Vm) (w : World) (name path : String) (args : List String), w.read path = some file →
              Cli.main (hashing env ω.1 ω.2) vm w (name :: "verify" :: path :: args) = .ok (.verdict true) := by
  obtain ⟨L₀, h⟩ := shaped_random_hash hta hof pi hsteps hmin hmax ha hab hN hn root0 root1 path0 path1 hp0 hp1
  refine ⟨L₀, fun L hL => (h L hL).trans (probability_mono ?_)⟩
  rintro ω ⟨proof, h1, h2, h3, h4, h5⟩
  obtain ⟨file, hread, hfl⟩ := shaped_file_of pi hwf hsize ha hab h1 h4
  exact ⟨file, proof, hread, h2, h3, h4, hfl,
    fun vm w name path rest hr => C61_accepted_files_partial.2 ⟨_, _, _, hr, hread, h5⟩⟩

/-- A false claim about `2^20` rows, with 600 nonces: the hypotheses of both theorems are met, and the bound is close to
one. -/
example (d0 d1 d2 : Commitment) : ∃ L₀, ∀ L ≥ L₀,
    1 - 1 / 2 ^ 220 ≤ probability ((Message L → Commitment) × (WorkMessage → Commitment)) fun ω =>
      ∃ proof, proof.ldeTraceMerkleRoots = [d0, d1] ∧
        (∀ o ∈ proof.deepPolyOpenings, o.ldeTraceMerkleProofs = [⟨List.replicate 22 d0⟩, ⟨List.replicate 22 d2⟩]) ∧
        ProofShape proof 20 2 52 2 2 3 ∧
        verifyCairoProof (hashing envDrawn ω.1 ω.2) proof falseStatement ProofOptions.defaultTestOptions = .ok true := by
  obtain ⟨L₀, h⟩ := C94_forged_random_hash (env := envDrawn) rfl envDrawn_challenges falseStatement (by decide)
    (by decide) (by decide) (a := 20) (by norm_num) (by norm_num) (N := 122) (n := 600) rfl (by norm_num) d0 d1
    ⟨List.replicate 22 d0⟩ ⟨List.replicate 22 d2⟩ rfl rfl
  refine ⟨L₀, fun L hL => le_trans ?_ (h L hL)⟩
  rw [show falseStatement.publicMemory.length = 0 from rfl, show (600 : Nat) = 200 * 3 from rfl, pow_mul]
  norm_num

example (d0 d1 d2 : Commitment) : ∃ L₀, ∀ L ≥ L₀,
    1 - 1 / 2 ^ 220 ≤ probability ((Message L → Commitment) × (WorkMessage → Commitment)) fun ω =>
      ∃ file proof, readProofFile file = .ok (proof, falseStatement) ∧ proof.ldeTraceMerkleRoots = [d0, d1] ∧
        ∀ (vm : Vm) (w : World) (name path : String) (args : List String), w.read path = some file →
          Cli.main (hashing envDrawn ω.1 ω.2) vm w (name :: "verify" :: path :: args) = .ok (.verdict true) := by
  obtain ⟨L₀, h⟩ := C94_forged_file_random_hash (env := envDrawn) rfl envDrawn_challenges falseStatement
    ⟨List.nodup_nil, by simp [falseStatement], List.nodup_nil, by decide⟩ (by decide) (by decide)
    (by decide) (by decide) (a := 20) (by norm_num) (by norm_num) (N := 122) (n := 600) rfl (by norm_num) d0 d1
    ⟨List.replicate 22 d0⟩ ⟨List.replicate 22 d2⟩ rfl rfl
  refine ⟨L₀, fun L hL => le_trans ?_ ((h L hL).trans (probability_mono
    fun ω ⟨file, proof, h1, h2, _, _, _, h6⟩ => ⟨file, proof, h1, h2, h6⟩))⟩
  rw [show falseStatement.publicMemory.length = 0 from rfl, show (600 : Nat) = 200 * 3 from rfl, pow_mul]
  norm_num

end Verif.Props
