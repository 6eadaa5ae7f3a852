import Verif.Lemmas.DeepSound
import Verif.Props.Binding
import Verif.Lemmas.NoPanic

/-!
# C67: what the answers to FRI queries say about the committed values
-/

namespace Verif.Props
open Polynomial Spec Proximity Finset

variable {F T Ch : Type} [Field F] [DecidableEq F] {env : Env F T}

/-- **C67**, the mathematics: a domain of `2^(a+b)` points, `b` doublings larger than the degree bound `2^a`, and
values `D` on it that differ from every polynomial of degree below `2^a` at more than `R` points, where `R` is at most a
third of `2^(a+b) - 2^a` or below the part `1 - 2^(-b/3)` of the points (`ProximityGap`, which also fixes `m`). However
the prover chooses the layers and the last value, each from the challenges drawn
before it, when none of the `a` challenges is one of at most `m` exceptions, more than `R` of the `2^(a+b)`
queries fail: their first value is not that of `D` or a fold is wrong. -/
theorem C67_fri_sound (S : FriStrategy F) (D : Nat → F) {a b : Nat} {h w : F}
    (hw : IsPrimitiveRoot w (2 ^ (a + b))) (hh : h ≠ 0) (h2 : (2 : F) ≠ 0) (ha : 1 ≤ a) {R m : Nat}
    (hR : ProximityGap (2 ^ (a + b)) (2 ^ a) R m)
    (hfar : ¬ NearPoly (2 ^ (a + b)) (fun s => w ^ s * h) D (2 ^ a) R) :
    AllButDraws m a fun ζ => ∃ failing : Finset Nat, R < failing.card ∧
      ∀ s ∈ failing, s < 2 ^ (a + b) ∧ ¬ (S.layer [] s = D s ∧ S.Passes a b h w ζ s) := by
  refine AllButDraws.mono le_rfl a (fri_sound S D a b h w hw hh h2 ha hR hfar) fun ζ hlen hc => ?_
  refine ⟨Finset.range (2 ^ (a + b)) \ passing S D a b h w ζ a, ?_, fun s hs => ?_⟩
  · have hsub : passing S D a b h w ζ a ⊆ Finset.range (2 ^ (a + b)) := Finset.filter_subset _ _
    have := Finset.card_sdiff_of_subset hsub
    rw [Finset.card_range] at this
    omega
  · obtain ⟨h1, h3⟩ := Finset.mem_sdiff.mp hs
    have h1 := Finset.mem_range.mp h1
    exact ⟨h1, fun hp => h3 ((mem_passing S D a b h w hlen h1).mpr hp)⟩

open Classical in
/-- **C67**, as an error bound: over a finite field, among all the draws of `a` challenges and `q` queries, those
for which all the queries pass are at most `a m |F|^(a-1)` draws of the challenges with any queries, and
for all the others at most `(2^(a+b) - R - 1)^q` of the `2^((a+b) q)` draws of queries. -/
theorem C67_fri_error [Fintype F] (S : FriStrategy F) (D : Nat → F) {a b : Nat} {h w : F}
    (hw : IsPrimitiveRoot w (2 ^ (a + b))) (hh : h ≠ 0) (h2 : (2 : F) ≠ 0) (ha : 1 ≤ a) {R m : Nat}
    (hR : ProximityGap (2 ^ (a + b)) (2 ^ a) R m)
    (hfar : ¬ NearPoly (2 ^ (a + b)) (fun s => w ^ s * h) D (2 ^ a) R) (q : Nat) :
    ((univ : Finset ((Fin a → F) × (Fin q → Fin (2 ^ (a + b))))).filter fun x =>
      ∀ i, S.layer [] (x.2 i) = D (x.2 i) ∧ S.Passes a b h w (List.ofFn x.1) (x.2 i)).card
      ≤ a * m * Fintype.card F ^ (a - 1) * (2 ^ (a + b)) ^ q
        + Fintype.card F ^ a * (2 ^ (a + b) - R - 1) ^ q := by
  set N := 2 ^ (a + b) with hN
  set bad := (univ : Finset (Fin a → F)).filter fun l =>
    ¬ ((passing S D a b h w (List.ofFn l) a).card + R < N) with hbad
  have hb : bad.card ≤ a * m * Fintype.card F ^ (a - 1) :=
    draws_count m a (fri_sound S D a b h w hw hh h2 ha hR hfar)
  have hcount : ∀ ζ : Fin a → F, ((univ : Finset (Fin q → Fin N)).filter fun ι =>
      ∀ i, S.layer [] (ι i) = D (ι i) ∧ S.Passes a b h w (List.ofFn ζ) (ι i)).card
      ≤ (passing S D a b h w (List.ofFn ζ) a).card ^ q := by
    intro ζ
    set G := (univ : Finset (Fin N)).filter fun s : Fin N =>
      S.layer [] s = D s ∧ S.Passes a b h w (List.ofFn ζ) s with hG
    have h1 : ((univ : Finset (Fin q → Fin N)).filter fun ι =>
        ∀ i, S.layer [] (ι i) = D (ι i) ∧ S.Passes a b h w (List.ofFn ζ) (ι i))
        = Fintype.piFinset fun _ : Fin q => G := by
      ext ι
      simp [hG, Fintype.mem_piFinset]
    rw [h1, Fintype.card_piFinset_const]
    refine Nat.pow_le_pow_left ?_ q
    have h3 : G.image (fun s : Fin N => (s : Nat)) ⊆ passing S D a b h w (List.ofFn ζ) a := by
      intro s hs
      obtain ⟨s, hs1, rfl⟩ := Finset.mem_image.mp hs
      exact (mem_passing S D a b h w (by simp) s.2).mpr (Finset.mem_filter.mp hs1).2
    refine le_trans (le_of_eq ?_) (Finset.card_le_card h3)
    rw [Finset.card_image_of_injective _ Fin.val_injective]
  have hle : ∀ ζ : Fin a → F, (passing S D a b h w (List.ofFn ζ) a).card ≤ N := by
    intro ζ
    have := Finset.card_le_card (Finset.filter_subset (fun s => S.layer [] s = D s ∧
      ∀ j < a, Check S a b h w (List.ofFn ζ) j s) (Finset.range (2 ^ (a + b))))
    rwa [Finset.card_range] at this
  have hsplit : ((univ : Finset ((Fin a → F) × (Fin q → Fin N))).filter fun x =>
      ∀ i, S.layer [] (x.2 i) = D (x.2 i) ∧ S.Passes a b h w (List.ofFn x.1) (x.2 i)).card
      = ∑ ζ : Fin a → F, ((univ : Finset (Fin q → Fin N)).filter fun ι =>
        ∀ i, S.layer [] (ι i) = D (ι i) ∧ S.Passes a b h w (List.ofFn ζ) (ι i)).card := by
    rw [Finset.card_filter, Fintype.sum_prod_type]
    refine Finset.sum_congr rfl fun ζ _ => ?_
    rw [Finset.card_filter]
  rw [hsplit]
  calc _ ≤ ∑ ζ : Fin a → F, (passing S D a b h w (List.ofFn ζ) a).card ^ q :=
        Finset.sum_le_sum fun ζ _ => hcount ζ
    _ ≤ ∑ ζ : Fin a → F, ((if ζ ∈ bad then N ^ q else 0) + (N - R - 1) ^ q) := by
        refine Finset.sum_le_sum fun ζ _ => ?_
        by_cases hζ : ζ ∈ bad
        · rw [if_pos hζ]
          exact le_trans (Nat.pow_le_pow_left (hle ζ) q) (Nat.le_add_right _ _)
        · rw [if_neg hζ, zero_add]
          refine Nat.pow_le_pow_left ?_ q
          have : (passing S D a b h w (List.ofFn ζ) a).card + R < N := by
            by_contra hcon
            exact hζ (Finset.mem_filter.mpr ⟨Finset.mem_univ _, hcon⟩)
          omega
    _ = bad.card * N ^ q + Fintype.card F ^ a * (N - R - 1) ^ q := by
        rw [Finset.sum_add_distrib, ← Finset.sum_filter, Finset.sum_const, Finset.sum_const, smul_eq_mul,
          smul_eq_mul, Finset.filter_mem_eq_inter, Finset.univ_inter, Finset.card_univ, Fintype.card_fun,
          Fintype.card_fin]
    _ ≤ _ := Nat.add_le_add_right (Nat.mul_le_mul_right _ hb) _

/-- **C67**, the code: in an accepted proof with the shape of an honest one, whose layer roots commit to lists of
values, every query the verifier draws passes the checks of FRI on the committed values, with the challenges
the verifier draws, and the first value it opens is the committed one, or its answer exhibits a collision.
Missing: the shape, which the verifier does not check (`C45_unused_data_accepted`,
`C66_path_length_unchecked`). -/
theorem C67_accepted_queries_pass_partial {PI : Type} {new : AirNew F Ch PI} {pi : PI}
    {options : ProofOptions} {proof : StarkProof F} {air : Air F Ch}
    (hair : new proof.traceLength pi options = .ok air) {a b : Nat} (S : Setting air a b)
    (h : verify env new proof pi options = .ok true) {cols roots offs queries : Nat}
    (shape : ProofShape proof a b cols roots offs queries) {layers : Nat → List F} {trees : Nat → Merkle.Tree}
    (hl : CommitsLayers env proof a b layers trees) :
    ∃ d c t w, Domain.new env.ta air = .ok d ∧ step1 env air proof d env.tr.init = .ok (c, t) ∧
      env.ta.root (a + b) = some w ∧ c.zetas.length = a ∧
      ∀ (i : Nat) q iota, proof.queryList[i]? = some q → c.iotas[i]? = some iota →
        (q.layersEvaluations[0]? = (layers 0)[iota]? ∧
          QueryPasses a b (air.context.proofOptions.cosetOffset : F) w (fun j s => (layers j).getD s 0)
            proof.friLastValue (fun j => c.zetas.getD j 0) iota) ∨
        QueryCollides env a b layers trees iota q := by
  obtain ⟨d, c, t', g, w, h1, h2, -, hw, -, -, hio, -, -, h5, -⟩ := C45_accepted_checks_partial hair S h
  have hz : c.zetas.length = a := (step1_zetas h2).trans shape.friLayers
  refine ⟨d, c, t', w, h1, h2, hw, hz, fun i q iota hq hi => ?_⟩
  by_cases hcol : QueryCollides env a b layers trees iota q
  · exact Or.inr hcol
  left
  obtain ⟨e1, e2, e3, e4⟩ := shape.query q (List.mem_of_getElem? hq)
  have hp : ∀ (ls : List MerkleProof), ls.map (·.merklePath.length) = (List.range a).map (fun k => a + b - k) →
      ∀ j < a, ∃ p, ls[j]? = some p ∧ p.merklePath.length = a + b - j := by
    intro ls hls j hj
    have hlen : ls.length = a := by simpa using congrArg List.length hls
    refine ⟨ls[j], List.getElem?_eq_getElem (by omega), ?_⟩
    have := congrArg (fun l => l[j]?) hls
    simp only [List.getElem?_map, List.getElem?_eq_getElem (show j < ls.length by omega), List.getElem?_range hj,
      Option.map_some, Option.some.injEq] at this
    exact this
  have key : ∀ j < a, ∃ ζ, c.zetas[j]? = some ζ ∧ ∃ v vs,
      q.layersEvaluations[j]? = some v ∧ v = (layers j).getD (iota % 2 ^ (a + b - j)) 0 ∧
      vs = (layers j).getD ((iota + 2 ^ (a + b - j) / 2) % 2 ^ (a + b - j)) 0 ∧
      foldValue ζ ((w ^ iota * (air.context.proofOptions.cosetOffset : F)) ^ 2 ^ j) v vs
        = (q.layersEvaluations[j + 1]?).getD proof.friLastValue := by
    intro j hj
    obtain ⟨path, hpath, hpl⟩ := hp _ e3 j hj
    obtain ⟨paths, hpaths, hpls⟩ := hp _ e4 j hj
    have hv : q.layersEvaluations[j]? = some q.layersEvaluations[j] := List.getElem?_eq_getElem (by omega)
    have hvs : q.layersEvaluationsSym[j]? = some q.layersEvaluationsSym[j] := List.getElem?_eq_getElem (by omega)
    obtain ⟨ζ, hζ, H⟩ := (h5 i q iota hq hi).2 j _ path _ paths _ (hl.root j hj) hpath hv hpaths hvs
    refine ⟨ζ, hζ, _, _, hv, ?_, ?_, H.folds⟩
    · obtain ⟨u, own, hu, hown, he⟩ := opening_of_tree _ _ (hl.length j hj) (hl.build j hj) hpl H.opened
      rcases he with he | he
      · rw [he, List.getD_eq_getElem?_getD, hu]; rfl
      · exact absurd ⟨j, hj, iota, path, _, own, u, Or.inl ⟨rfl, hpath, hv⟩, hown, hu, he⟩ hcol
    · obtain ⟨u, own, hu, hown, he⟩ := opening_of_tree _ _ (hl.length j hj) (hl.build j hj) hpls H.openedSym
      rcases he with he | he
      · rw [he, List.getD_eq_getElem?_getD]
        rw [Nat.mod_mod] at hu
        rw [hu]; rfl
      · exact absurd ⟨j, hj, _, paths, _, own, u, Or.inr ⟨rfl, hpaths, hvs⟩, hown, hu, he⟩ hcol
  constructor
  · obtain ⟨ζ, -, v, vs, hv, hv', -, -⟩ := key 0 S.rows
    have hlt := hio iota (List.mem_of_getElem? hi)
    rw [Nat.sub_zero, Nat.mod_eq_of_lt hlt] at hv'
    have hlen := hl.length 0 S.rows
    rw [hv, hv', List.getD_eq_getElem?_getD, List.getElem?_eq_getElem (by rw [hlen]; exact hlt)]
    rfl
  · intro j hj
    obtain ⟨ζ, hζ, v, vs, hv, hv', hvs', hf⟩ := key j hj
    rw [hv', hvs'] at hf
    have hζ' : c.zetas.getD j 0 = ζ := by rw [List.getD_eq_getElem?_getD, hζ]; rfl
    show foldValue (c.zetas.getD j 0) _ _ _ = _
    rw [hζ', hf]
    by_cases hj1 : j + 1 < a
    · obtain ⟨-, -, v1, -, hv1, hv1', -, -⟩ := key (j + 1) hj1
      rw [if_pos hj1, hv1, hv1']
      rfl
    · rw [if_neg hj1, List.getElem?_eq_none (by omega)]
      rfl

/-- The layers of an honest run are committed. -/
theorem honest_layers {air : Air F Ch} {d : Domain F} {a b : Nat} {g w : F}
    (D : IsDomain env.ta d a b (air.context.proofOptions.cosetOffset : F) g w)
    {trace : TraceTable F} {proof : StarkProof F} {c : Challenges F Ch} {r1 : Round1 F Ch} {r2 : Round2 F}
    {deep : F[X]} {layers : List (Fri.FriLayer F)} {ps : Nat → F[X]}
    (U : ProverUses env air d trace proof c r1 r2 deep layers ps) (hdeg : deep.degree < (2 ^ a : Nat)) :
    ∃ values trees, CommitsLayers env proof a b values trees := by
  have hlen : layers.length = a := by rw [U.fri_count, D.rootOrder]
  have hf : Fri.Folds env deep (air.context.proofOptions.cosetOffset : F) (a + b) layers c.zetas
      (ps layers.length) ps := {
    start := U.fri_start
    stop := rfl
    lengths := U.fri_zetas
    layer := fun k l hl => by
      have := U.fri_layers k l hl
      rwa [D.lde_length, Nat.pow_div (by
        have := (List.getElem?_eq_some_iff.mp hl).1
        omega) (by norm_num)] at this
    next := U.fri_fold }
  have key : ∀ i, ∃ (v : List F) (t : Merkle.Tree), i < a → v.length = 2 ^ (a + b - i) ∧
      Merkle.build env.hashes.leaf env.hashes.node v = .ok t ∧ (layers.map (·.merkleTree.root))[i]? = some t.root := by
    intro i
    by_cases hi : i < a
    · have hl : layers[i]? = some layers[i] := List.getElem?_eq_getElem (by omega)
      have hnew := hf.layer i _ hl
      obtain ⟨u, hu⟩ := Option.isSome_iff_exists.mp (env.ta.defined (a + b - i) (by omega) (by
        have := root_le_adicity D.hw
        omega))
      obtain ⟨t, ht, hn⟩ := Fri.layer_new_ok (env := env) (p := ps i)
        (h := (air.context.proofOptions.cosetOffset : F) ^ 2 ^ i) (w := u) (m := a + b - i)
        (by have := D.small; omega)
        (lt_of_lt_of_le (hf.degree hdeg i (by omega) (by omega))
          (by exact_mod_cast Nat.pow_le_pow_right (by norm_num) (by omega))) hu
      refine ⟨_, t, fun _ => ⟨by simp, ht, ?_⟩⟩
      rw [hn] at hnew
      rw [List.getElem?_map, hl, ← Outcome.ok.inj hnew]
      rfl
    · exact ⟨[], ⟨[], ⟨List.replicate 32 0, rfl⟩⟩, fun h => absurd h hi⟩
  choose values trees h using key
  refine ⟨values, trees, fun i hi => (h i hi).1, fun i hi => (h i hi).2.1, fun i hi => ?_⟩
  rw [U.friRoots]
  exact (h i hi).2.2

/-- The values of `x^k` differ from polynomials of degree below `k` at all but `k` points. -/
theorem power_far {N : Nat} {x : Nat → F} (hx : Set.InjOn x (Finset.range N : Finset Nat)) {k R : Nat}
    (hR : R + k < N) : ¬ NearPoly N x (fun s => x s ^ k) k R := by
  rintro ⟨p, hp, hc⟩
  have hsplit := Finset.card_filter_add_card_filter_not (s := Finset.range N) (fun s => x s ^ k = p.eval (x s))
  rw [Finset.card_range] at hsplit
  simp only [ne_eq] at hc
  have hdeg : ((X : F[X]) ^ k - p).degree = k := by
    rw [degree_sub_eq_left_of_degree_lt (by rw [degree_X_pow]; exact hp), degree_X_pow]
  have := zero_of_agree (k := k + 1) (cap := 1) ((Finset.range N).filter fun s => x s ^ k = p.eval (x s)) x
    (fun z => by
      rw [Finset.card_le_one]
      intro s hs t ht
      obtain ⟨s1, s2⟩ := Finset.mem_filter.mp hs
      obtain ⟨t1, t2⟩ := Finset.mem_filter.mp ht
      exact hx (Finset.mem_coe.mpr (Finset.mem_filter.mp s1).1) (Finset.mem_coe.mpr (Finset.mem_filter.mp t1).1)
        (s2.trans t2.symm)) (by omega) one_pos (p := X ^ k - p)
    (by rw [hdeg]; exact_mod_cast Nat.lt_succ_self k) (by
      intro s hs
      rw [eval_sub, eval_pow, eval_X, (Finset.mem_filter.mp hs).2, sub_self])
  rw [this, degree_zero] at hdeg
  cases hdeg

/-- The hypotheses of `C67_fri_sound` and `C67_fri_error`: in the field with 17 elements, on the coset of 16
points, `x^4` is far from the polynomials of degree below 4, and the bound says that five queries or more
fail, except for five challenges in each round. -/
example : IsPrimitiveRoot (3 : ZMod 17) (2 ^ (2 + 2)) ∧ (3 : ZMod 17) ≠ 0 ∧ (2 : ZMod 17) ≠ 0 ∧
    ProximityGap (2 ^ (2 + 2)) (2 ^ 2) 4 5 ∧
    ¬ NearPoly (2 ^ (2 + 2)) (fun s => (3 : ZMod 17) ^ s * 3) (fun s => (3 ^ s * 3) ^ 2 ^ 2) (2 ^ 2) 4 := by
  have hw : IsPrimitiveRoot (3 : ZMod 17) (2 ^ (2 + 2)) := primitive17
  refine ⟨hw, by decide, by decide, Or.inl (by norm_num), power_far ?_ (by norm_num)⟩
  intro s hs t ht he
  exact hw.pow_inj (by simpa using hs) (by simpa using ht) (mul_right_cancel₀ (by decide) he)

/-- Beyond a third of the distance: on 64 points, 23 errors are allowed for polynomials of degree below 16, where a
third of the distance is 16. -/
example : ProximityGap (2 ^ (4 + 2)) (2 ^ 4) 23 (2 ^ 13) ∧ ¬ 3 * 17 + 2 ^ 4 ≤ 2 ^ (4 + 2) :=
  ⟨Or.inr (by norm_num), by norm_num⟩

open Examples ExampleAirs TraceTable in
/-- An honest run, with what the prover computed. -/
theorem honest17_run : ∃ (proof : StarkProof (ZMod 17)) (values : Nat → List (ZMod 17))
    (trees : Nat → Merkle.Tree) (d : Domain (ZMod 17)) (c : Challenges (ZMod 17) Unit) (t : _) (g w : ZMod 17)
    (full : List (List (ZMod 17))) (H : (ZMod 17)[X]) (r1 : Round1 (ZMod 17) Unit) (r2 : Round2 (ZMod 17))
    (deep : (ZMod 17)[X]) (layers : List (Fri.FriLayer (ZMod 17))) (ps : Nat → (ZMod 17)[X]),
    Domain.new env17.ta air17 = .ok d ∧ step1 env17 air17 proof d env17.tr.init = .ok (c, t) ∧
    IsDomain env17.ta d 2 1 (air17.context.proofOptions.cosetOffset : ZMod 17) g w ∧
    ProverUses env17 air17 d (ofRows rows17 2) proof c r1 r2 deep layers ps ∧
    IsRound1 env17 2 1 (air17.context.proofOptions.cosetOffset : ZMod 17) g w full r1 ∧
    IsRound2 env17 2 1 (air17.context.proofOptions.cosetOffset : ZMod 17) w H r2 ∧
    fibonacci2 proof.traceLength ⟨1, 1⟩ (options17 3) = .ok air17 ∧ Setting air17 2 1 ∧
    verify env17 fibonacci2 proof ⟨1, 1⟩ (options17 3) = .ok true ∧
    ProofShape proof 2 1 air17.context.traceColumns 1 air17.context.transitionOffsets.length
      air17.context.proofOptions.friNumberOfQueries ∧ CommitsLayers env17 proof 2 1 values trees := by
  obtain ⟨proof, hp, hv⟩ := honest17
  obtain ⟨d, c, t, r1, r2, deep, layers, ps, hd, hs, U⟩ :=
    C49_same_challenges (env := env17) (trace := TraceTable.ofRows rows17 2) (a := 2) (b := 1)
      (air := air17) rfl (by norm_num) rfl rfl hp
  obtain ⟨g, w, D⟩ := domain_new setting17.rows setting17.length setting17.blowup hd
  have hext : ∀ (ch : Unit) (aux : TraceTable (ZMod 17)) (bcs : List (BoundaryConstraint (ZMod 17))),
      air17.buildAuxiliaryTrace (ofRows rows17 2) ch = .ok aux → air17.boundaryConstraints ch = .ok bcs →
      SatisfiesExtended air17 rows17 2 ch aux := by
    intro ch aux bcs h1 _
    obtain rfl := Outcome.ok.inj h1
    exact extended17 _
  obtain ⟨t1, hr1⟩ := U.first
  obtain ⟨full, H, boundary, R1, hplen, hfull, hbc, hcolb, hHdeg, hHeval, R2⟩ :=
    honest_rounds (k := 2) D setting17.length setting17.blowup setting17.extended setting17.offset setting17.fits
      (by norm_num) (rows := rows17) rfl (by decide) hr1 (fibonacci2_polynomial _ _ _ air17_eq _) (hext _) U.second
  obtain ⟨aux, haux, hshape⟩ := shape_run D setting17.length setting17.blowup setting17.extended setting17.offset
    setting17.fits (by norm_num) (rows := rows17) rfl (by decide) hs U (fibonacci2_polynomial _ _ _ air17_eq _)
    (hext _)
  obtain rfl := Outcome.ok.inj haux
  obtain ⟨-, -, hg1, hg2, hi, -⟩ := step1_inv hs
  have hframe : (round3 air17 d r1 r2 c.z).traceOodEvaluations
      = frameRows r1.tracePolys air17.context.transitionOffsets g c.z := by
    simp only [round3, Frame.getTraceEvaluations, frameRows, List.map_map, D.tracePrimitiveRoot]
    rfl
  obtain ⟨P, hP1, hP2, -⟩ := computeDeep_ok (air := air17) (g := g) (z := c.z) (r2 := r2)
    (r3 := round3 air17 d r1 r2 c.z) hframe rfl rfl hg2 (by rw [hplen, hg1]) (by positivity) R1.degree
    (by rw [R2.even]; exact even_degree _ _ hHdeg) (by rw [R2.odd]; exact odd_degree _ _ hHdeg)
    c.gammaEven c.gammaOdd
  have hdp := U.deep_poly
  rw [D.tracePrimitiveRoot, hP1] at hdp
  obtain rfl := Outcome.ok.inj hdp
  obtain ⟨values, trees, hc⟩ := honest_layers D U hP2
  exact ⟨proof, values, trees, d, c, t, g, w, full, H, r1, r2, P, layers, ps, hd, hs, D, U, R1, R2,
    by rw [U.traceLength]; exact air17_eq, setting17, hv, hshape, hc⟩

open Examples ExampleAirs TraceTable in
/-- The hypotheses of `C67_accepted_queries_pass_partial` are met by an honest proof. -/
theorem honest17_commits : ∃ (proof : StarkProof (ZMod 17)) (values : Nat → List (ZMod 17))
    (trees : Nat → Merkle.Tree),
    fibonacci2 proof.traceLength ⟨1, 1⟩ (options17 3) = .ok air17 ∧ Setting air17 2 1 ∧
    verify env17 fibonacci2 proof ⟨1, 1⟩ (options17 3) = .ok true ∧
    ProofShape proof 2 1 air17.context.traceColumns 1 air17.context.transitionOffsets.length
      air17.context.proofOptions.friNumberOfQueries ∧ CommitsLayers env17 proof 2 1 values trees := by
  obtain ⟨proof, values, trees, -, -, -, -, -, -, -, -, -, -, -, -, -, -, -, -, -, -, h⟩ := honest17_run
  exact ⟨proof, values, trees, h⟩

end Verif.Props
