import Verif.Spec.Inputs
import Verif.Props.Verdict
import Verif.Props.Verifier

/-!
# C77: an accepted proof and other public inputs
-/

namespace Verif.Props
open Polynomial Verif.Spec CairoAir TraceTable
variable {F T Ch : Type} [Field F] [DecidableEq F] {env : Env F T}

omit [DecidableEq F] in
theorem setting_congr {air air' : Air F Ch} (B : SameButBoundary air air') {a b : Nat} (S : Setting air a b) :
    Setting air' a b := by
  obtain ⟨h1, h2, h3, h4, h5, h6, h7, -⟩ := B
  obtain ⟨s1, s2, s3, s4, s5, ⟨f1, f2, f3, f4, f5, f6, f7, f8, f9, f10, f11, f12, f13, f14⟩⟩ := S
  rw [← h1, ← h2, ← h3] at *
  refine ⟨s1, s2, s3, s4, s5, ⟨f1, f2, f3, ?_, f5, f6, f7, f8, f9, f10, f11, f12, f13, f14⟩⟩
  rw [h4]
  exact f4

theorem step1_boundary {air : Air F Ch} {proof : StarkProof F} {d : Domain F} {t t' : T} {c : Challenges F Ch}
    (h : step1 env air proof d t = .ok (c, t')) : ∃ boundary, air.boundaryConstraints c.rapChallenges = .ok boundary := by
  unfold step1 at h
  simp only [Outcome.bind_eq_ok, Outcome.pure_eq, Outcome.ok.injEq, Prod.mk.injEq] at h
  obtain ⟨_, _, bcs, hb, _, _, _, _, _, _, rfl, -⟩ := h
  exact ⟨bcs, hb⟩

theorem step1_rap {air : Air F Ch} {proof : StarkProof F} {d : Domain F} {t t' : T} {c : Challenges F Ch}
    (h : step1 env air proof d t = .ok (c, t')) : ∃ root, proof.ldeTraceMerkleRoots[0]? = some root ∧
      c.rapChallenges = (buildRapChallenges env air (env.tr.append t root.val)).1 := by
  unfold step1 at h
  simp only [Outcome.bind_eq_ok, Outcome.pure_eq, Outcome.ok.injEq, Prod.mk.injEq] at h
  obtain ⟨root, hr, _, _, _, _, _, _, _, _, rfl, -⟩ := h
  exact ⟨root, index_eq_ok.mp hr, rfl⟩

/-- **C77**, exactly: a proof that is accepted for `pi` is accepted for `pi'`, whose AIR differs in what the boundary
constraints say, if and only if the boundary quotients at the out-of-domain point have the same sum. -/
theorem C77_other_inputs {PI : Type} {new : AirNew F Ch PI} {pi pi' : PI} {options : ProofOptions}
    {proof : StarkProof F} {air air' : Air F Ch} (hair : new proof.traceLength pi options = .ok air)
    (hair' : new proof.traceLength pi' options = .ok air') (hopt : air.context.proofOptions = options) {a b : Nat}
    (S : Setting air a b) (W : WellFormed air proof (a + b)) (B : SameButBoundary air air')
    (h : verify env new proof pi options = .ok true) {r : Bool} (h' : verify env new proof pi' options = .ok r) :
    ∃ g w, env.ta.root a = some g ∧ env.ta.root (a + b) = some w ∧
      (∃ boundary x, Replays env air proof boundary a b g w x) ∧
      ∀ boundary x, Replays env air proof boundary a b g w x →
        let c := x.challenges env air proof (a + b)
        ∃ boundary', air'.boundaryConstraints c.rapChallenges = .ok boundary' ∧
          let value := fun l => boundaryAt g c.z air.traceLength air.compositionPolyDegreeBound
            (fun j => frameCell proof.traceOodFrameEvaluations 0 j) l c.boundaryCoeffs
          (r = true ↔ value boundary' = value boundary) := by
  have S' := setting_congr B S
  obtain ⟨hq, air0, d, c, t, h1, hd, hs, -, -, -, -⟩ := verify_true h
  obtain rfl := Outcome.ok.inj (hair.symm.trans h1)
  obtain ⟨g, w, D⟩ := domain_new S.rows S.length S.blowup hd
  have hd' : Domain.new env.ta air' = .ok d := by
    rw [← hd]
    unfold Domain.new
    rw [B.context, B.traceLength]
  have h0 := h'
  unfold verify at h0
  rw [if_neg (by omega)] at h0
  simp only [Outcome.bind_eq_ok, hair', hd', Outcome.ok.injEq, exists_eq_left'] at h0
  obtain ⟨⟨c', t'⟩, hs', -⟩ := h0
  obtain ⟨rfl, rfl⟩ := Prod.mk.inj (step1_congr B.context B.numRapChallenges B.rapChallenges B.number hs hs')
  obtain ⟨boundary, x, R, -⟩ := replays_of_step1 D S.fits.columns_pos W hs
  refine ⟨g, w, D.hg, D.hw, ⟨boundary, x, R⟩, fun boundary x R => ?_⟩
  obtain ⟨t1, hs1⟩ := step1_of_replays D S.fits.columns_pos W R
  obtain ⟨rfl, rfl⟩ := Prod.mk.inj (Outcome.ok.inj (hs.symm.trans hs1))
  obtain ⟨boundary', hb'⟩ := step1_boundary hs'
  refine ⟨boundary', hb', ?_⟩
  have C := (verdict_iff hair hopt S hd D hs R.constraints h).mp rfl
  have D' : IsDomain env.ta d a b (air'.context.proofOptions.cosetOffset : F) g w := by
    rw [B.context]
    exact D
  rw [verdict_iff hair' (by rw [B.context]; exact hopt) S' hd' D' hs' hb' h']
  obtain ⟨evals, hev, hcomp⟩ := C.composition
  constructor
  · intro C'
    obtain ⟨evals', hev', hcomp'⟩ := C'.composition
    rw [B.computeTransition] at hev'
    obtain rfl := Outcome.ok.inj (hev.symm.trans hev')
    have := hcomp'.symm.trans hcomp
    unfold compositionOf at this
    rw [B.traceLength, B.bound, B.context] at this
    exact add_right_cancel this
  · intro heq
    refine ⟨by rw [B.context]; exact C.queries, by rw [B.context]; exact C.grinding, ⟨evals, ?_, ?_⟩, ?_, ?_⟩
    · rw [B.computeTransition]
      exact hev
    · rw [hcomp]
      unfold compositionOf
      rw [B.traceLength, B.bound, B.context]
      exact congrArg (· + _) heq.symm
    · rw [B.context]
      exact C.fri
    · rw [B.context]
      exact C.deep

omit [DecidableEq F] in
/-- The sum of the boundary quotients when one value changes. -/
theorem boundaryAt_set (g x : F) (n bound : Nat) (col : Nat → F) (boundary : List (BoundaryConstraint F))
    (coeffs : List (F × F)) {k : Nat} {c : BoundaryConstraint F} {α β : F} (hc : boundary[k]? = some c)
    (hk : coeffs[k]? = some (α, β)) (v : F) :
    boundaryAt g x n bound col (boundary.set k { c with value := v }) coeffs
      = boundaryAt g x n bound col boundary coeffs
        + (c.value - v) / (x - g ^ c.step) * (α * x ^ (bound - n) + β) := by
  unfold boundaryAt
  induction boundary generalizing coeffs k with
  | nil => simp at hc
  | cons e l ih =>
    cases coeffs with
    | nil => simp at hk
    | cons y coeffs =>
      cases k with
      | zero =>
        obtain rfl := Option.some.inj hc
        obtain rfl := Option.some.inj hk
        simp only [List.set_cons_zero, List.zip_cons_cons, List.map_cons, List.sum_cons]
        ring
      | succ k =>
        simp only [List.set_cons_succ, List.zip_cons_cons, List.map_cons, List.sum_cons]
        rw [ih coeffs (by simpa using hc) (by simpa using hk)]
        ring

omit [DecidableEq F] in
theorem point_ne {air : Air F Ch} {proof : StarkProof F} {boundary : List (BoundaryConstraint F)} {a b : Nat}
    (ha : 1 ≤ a) {g w : F} (hg : env.ta.root a = some g) {x : Drawn} (R : Replays env air proof boundary a b g w x)
    (step : Nat) : env.ofDigest x.point - g ^ step ≠ 0 := by
  refine sub_ne_zero.mpr fun he => R.point (Or.inr ⟨step % 2 ^ a, Nat.mod_lt _ (by positivity), ?_⟩)
  rw [he]
  exact pow_eq_pow_mod _ (env.ta.primitive a g ha hg).pow_eq_one

theorem changed_value_iff {PI : Type} {new : AirNew F Ch PI} {pi pi' : PI} {options : ProofOptions}
    {proof : StarkProof F} {air air' : Air F Ch} (hair : new proof.traceLength pi options = .ok air)
    (hair' : new proof.traceLength pi' options = .ok air') (hopt : air.context.proofOptions = options) {a b : Nat}
    (S : Setting air a b) (W : WellFormed air proof (a + b)) (B : SameButBoundary air air') {k : Nat}
    (hset : ∀ ch boundary boundary', air.boundaryConstraints ch = .ok boundary →
      air'.boundaryConstraints ch = .ok boundary' →
      ∃ c v, boundary[k]? = some c ∧ boundary' = boundary.set k { c with value := v })
    (h : verify env new proof pi options = .ok true) {r : Bool} (h' : verify env new proof pi' options = .ok r) :
    ∃ g w, env.ta.root a = some g ∧ env.ta.root (a + b) = some w ∧
      (∃ boundary x, Replays env air proof boundary a b g w x) ∧
      ∀ boundary x, Replays env air proof boundary a b g w x →
        ∃ α β c v, x.alphaB[k]? = some α ∧ x.betaB[k]? = some β ∧ boundary[k]? = some c ∧
          air'.boundaryConstraints (air.rapChallenges (x.rap.map env.ofDigest))
            = .ok (boundary.set k { c with value := v }) ∧
          (r = true ↔ v = c.value ∨
            env.ofDigest α * env.ofDigest x.point ^ (air.compositionPolyDegreeBound - air.traceLength)
              + env.ofDigest β = 0) := by
  obtain ⟨g, w, hg, hw, hex, hall⟩ := C77_other_inputs hair hair' hopt S W B h h'
  refine ⟨g, w, hg, hw, hex, fun boundary x R => ?_⟩
  obtain ⟨boundary', hb', hiff⟩ := hall boundary x R
  obtain ⟨c, v, hc, rfl⟩ := hset _ _ _ R.constraints hb'
  have hk := (List.getElem?_eq_some_iff.mp hc).1
  have h1 : k < x.alphaB.length := by rw [R.alphaB]; exact hk
  have h2 : k < x.betaB.length := by rw [R.betaB]; exact hk
  refine ⟨_, _, c, v, List.getElem?_eq_getElem h1, List.getElem?_eq_getElem h2, hc, hb', ?_⟩
  refine hiff.trans ?_
  have hcoef : (x.challenges env air proof (a + b)).boundaryCoeffs[k]?
      = some (env.ofDigest x.alphaB[k], env.ofDigest x.betaB[k]) := by
    show ((x.alphaB.map env.ofDigest).zip (x.betaB.map env.ofDigest))[k]? = _
    rw [List.getElem?_zip_eq_some]
    simp [h1, h2]
  have hz : env.ofDigest x.point - g ^ c.step ≠ 0 := point_ne S.rows hg R c.step
  dsimp only
  rw [boundaryAt_set _ _ _ _ _ _ _ hc hcoef]
  show _ + (c.value - v) / (env.ofDigest x.point - _) * _ = _ ↔ _
  rw [add_eq_left, mul_eq_zero, div_eq_zero_iff, or_iff_left hz, sub_eq_zero, eq_comm (a := v)]
  rfl

/-- **C77**: when one value stated by a boundary constraint is replaced by another one, the proof is rejected, unless
the two coefficients drawn for that constraint and the out-of-domain point satisfy one linear equation. -/
theorem C77_changed_value_partial {PI : Type} {new : AirNew F Ch PI} {pi pi' : PI} {options : ProofOptions}
    {proof : StarkProof F} {air air' : Air F Ch} (hair : new proof.traceLength pi options = .ok air)
    (hair' : new proof.traceLength pi' options = .ok air') (hopt : air.context.proofOptions = options) {a b : Nat}
    (S : Setting air a b) (W : WellFormed air proof (a + b)) (B : SameButBoundary air air') {k : Nat}
    (hset : ∀ ch boundary boundary', air.boundaryConstraints ch = .ok boundary →
      air'.boundaryConstraints ch = .ok boundary' →
      ∃ c v, boundary[k]? = some c ∧ v ≠ c.value ∧ boundary' = boundary.set k { c with value := v })
    (h : verify env new proof pi options = .ok true) {r : Bool} (h' : verify env new proof pi' options = .ok r) :
    ∃ g w, env.ta.root a = some g ∧ env.ta.root (a + b) = some w ∧
      (∃ boundary x, Replays env air proof boundary a b g w x) ∧
      ∀ boundary x, Replays env air proof boundary a b g w x →
        ∃ α β, x.alphaB[k]? = some α ∧ x.betaB[k]? = some β ∧
          (r = true ↔ env.ofDigest α * env.ofDigest x.point ^ (air.compositionPolyDegreeBound - air.traceLength)
            + env.ofDigest β = 0) := by
  obtain ⟨g, w, hg, hw, hex, hall⟩ := changed_value_iff hair hair' hopt S W B (k := k) (fun ch l l' hl hl' => by
    obtain ⟨c, v, h1, -, h2⟩ := hset ch l l' hl hl'
    exact ⟨c, v, h1, h2⟩) h h'
  refine ⟨g, w, hg, hw, hex, fun boundary x R => ?_⟩
  obtain ⟨α, β, c, v, hα, hβ, hc, hb', hiff⟩ := hall boundary x R
  refine ⟨α, β, hα, hβ, ?_⟩
  obtain ⟨c1, v1, hc1, hne, he⟩ := hset _ _ _ R.constraints hb'
  obtain rfl := Option.some.inj (hc1.symm.trans hc)
  have hk := (List.getElem?_eq_some_iff.mp hc).1
  have := congrArg (·[k]?) he
  simp only [List.getElem?_set_self hk, Option.some.injEq, BoundaryConstraint.mk.injEq, true_and] at this
  obtain rfl := this
  rw [hiff, or_iff_right hne]

theorem oodBoundary_answers {proof : StarkProof F} {d : Domain F} {z : F} {coeffs : List (F × F)} {adj : Nat}
    {boundary boundary' : List (BoundaryConstraint F)}
    (hcells : boundary'.map (fun c => (c.col, c.step)) = boundary.map fun c => (c.col, c.step)) {v : F}
    (h : oodBoundary proof boundary d z coeffs adj = .ok v) :
    ∃ v', oodBoundary proof boundary' d z coeffs adj = .ok v' := by
  unfold oodBoundary at h ⊢
  rw [Outcome.bind_eq_ok] at h
  obtain ⟨pairs, hp, h⟩ := h
  have : ∃ pairs', mapOutcome (fun c : BoundaryConstraint F => do
      let row ← proof.traceOodFrameEvaluations.getRow 0
      let v ← index row c.col
      return (v - c.value, z - d.tracePrimitiveRoot ^ c.step)) boundary' = (.ok pairs' : Outcome Empty _) ∧
      pairs'.map (·.2) = pairs.map (·.2) := by
    clear h
    induction boundary generalizing boundary' pairs with
    | nil =>
      obtain rfl := List.map_eq_nil_iff.mp hcells
      obtain rfl := Outcome.ok.inj hp
      exact ⟨[], rfl, rfl⟩
    | cons c l ih =>
      cases boundary' with
      | nil => cases hcells
      | cons c' l' =>
        simp only [List.map_cons, List.cons.injEq, Prod.mk.injEq] at hcells
        obtain ⟨⟨hcol, hstep⟩, hl⟩ := hcells
        simp only [mapOutcome, Outcome.bind_eq_ok, Outcome.pure_eq, Outcome.ok.injEq] at hp ⊢
        obtain ⟨_, ⟨row, hrow, u, hu, rfl⟩, ps, hps, rfl⟩ := hp
        obtain ⟨ps', hps', he⟩ := ih hl _ hps
        refine ⟨_, ⟨_, ⟨row, hrow, u, by rw [hcol]; exact hu, rfl⟩, ps', ?_, rfl⟩, ?_⟩
        · exact hps'
        · simp only [List.map_cons, he, hstep]
  obtain ⟨pairs', hp', he⟩ := this
  rw [hp', Outcome.bind_ok, he]
  rw [Outcome.bind_eq_ok] at h
  obtain ⟨dens, hdens, -⟩ := h
  rw [hdens]
  exact ⟨_, rfl⟩

theorem step1_transfer {air air' : Air F Ch} (B : SameButBoundary air air') {proof : StarkProof F} {d : Domain F}
    {t : T} {c : Challenges F Ch} {t' : T} (h : step1 env air proof d t = .ok (c, t'))
    {boundary' : List (BoundaryConstraint F)} (hb' : air'.boundaryConstraints c.rapChallenges = .ok boundary') :
    step1 env air' proof d t = .ok (c, t') := by
  have hbuild : ∀ t, buildRapChallenges env air' t = buildRapChallenges env air t := by
    intro t
    unfold buildRapChallenges
    rw [B.numRapChallenges, B.rapChallenges]
  unfold step1 at h ⊢
  simp only [Outcome.bind_eq_ok, Outcome.pure_eq, hbuild, B.context, Outcome.ok.injEq, Prod.mk.injEq] at h ⊢
  obtain ⟨root0, h0, bcs, h1, z, h2, t7, h3, io, h4, rfl, rfl⟩ := h
  have hn := B.number _ _ _ h1 hb'
  exact ⟨root0, h0, boundary', hb', z, by rw [hn]; exact h2, t7, h3, io, h4, by rw [hn], rfl⟩

/-- **C77**: if the boundary constraints are about the same cells, the verifier answers, for the other public inputs
too. -/
theorem C77_answers {PI : Type} {new : AirNew F Ch PI} {pi pi' : PI} {options : ProofOptions}
    {proof : StarkProof F} {air air' : Air F Ch} (hair : new proof.traceLength pi options = .ok air)
    (hair' : new proof.traceLength pi' options = .ok air') (B : SameButBoundary air air')
    (hcells : ∀ root boundary, proof.ldeTraceMerkleRoots[0]? = some root →
      air.boundaryConstraints (buildRapChallenges env air (env.tr.append env.tr.init root.val)).1 = .ok boundary →
      ∃ boundary',
        air'.boundaryConstraints (buildRapChallenges env air (env.tr.append env.tr.init root.val)).1 = .ok boundary' ∧
        boundary'.map (fun c => (c.col, c.step)) = boundary.map fun c => (c.col, c.step))
    (h : verify env new proof pi options = .ok true) : ∃ r, verify env new proof pi' options = .ok r := by
  obtain ⟨hq, air0, d, c, t, h1, hd, hs, hg, h2, h3, h4⟩ := verify_true h
  obtain rfl := Outcome.ok.inj (hair.symm.trans h1)
  obtain ⟨boundary, hb⟩ := step1_boundary hs
  obtain ⟨root, hroot, hch⟩ := step1_rap hs
  obtain ⟨boundary', hb', hc⟩ := hcells root boundary hroot (by rw [← hch]; exact hb)
  rw [← hch] at hb'
  have hd' : Domain.new env.ta air' = .ok d := by
    rw [← hd]
    unfold Domain.new
    rw [B.context, B.traceLength]
  have h2' : ∃ r, step2 air' proof d c = .ok r := by
    unfold step2 at h2 ⊢
    simp only [hb, hb', Outcome.bind_ok, Outcome.bind_eq_ok, B.traceLength, B.bound, B.computeTransition, B.context,
      Outcome.pure_eq] at h2 ⊢
    obtain ⟨adj, ha, q, hq, evs, he, den, hden, last, hl, ex, hex, mx, hmx, ds, hds, tr, htr, -⟩ := h2
    obtain ⟨q', hq'⟩ := oodBoundary_answers hc hq
    refine ⟨_, adj, ha, q', hq', evs, he, den, hden, last, hl, ex, ?_, mx, hmx, ds, hds, tr, ?_, rfl⟩
    · rw [← hex]
      unfold transitionExemptionsVerifier
      simp only [B.context]
    · rw [← htr]
      unfold oodTransition
      rw [B.context]
  obtain ⟨r2, h2'⟩ := h2'
  have h4' : step4 env air' proof d c = .ok true := by
    rw [← h4]
    unfold step4 verifyDeepAt
    simp only [B.context, B.auxiliary]
  unfold verify
  rw [if_neg (by omega), hair', Outcome.bind_ok, hd', Outcome.bind_ok, step1_transfer B hs hb', Outcome.bind_ok,
    B.context, if_neg (by show ¬ c.leadingZerosCount < _; omega)]
  simp only [h2', h3, h4', Outcome.bind_ok]
  cases r2 <;> exact ⟨_, rfl⟩

omit [Field F] [DecidableEq F] in
theorem set_cells {l : List (BoundaryConstraint F)} {k : Nat} {c : BoundaryConstraint F} (hc : l[k]? = some c) (v : F) :
    (l.set k { c with value := v }).map (fun c => (c.col, c.step)) = l.map fun c => (c.col, c.step) := by
  obtain ⟨hk, rfl⟩ := List.getElem?_eq_some_iff.mp hc
  rw [List.map_set]
  refine List.ext_getElem (by simp) fun i h1 h2 => ?_
  rw [List.getElem_set]
  split
  next he =>
    subst he
    simp
  next => rfl

/-! ## Cairo -/

variable {env : Env FE T}

theorem cairo_same {pi pi' : PublicInputs} (hrc : hasRcBuiltin pi' = hasRcBuiltin pi) (n : Nat)
    (options : ProofOptions) : SameButBoundary (air n pi options) (air n pi' options) := by
  refine ⟨?_, rfl, rfl, rfl, rfl, rfl, ?_, ?_⟩
  · unfold air
    rw [hrc]
  · unfold air
    rw [hrc]
  · intro ch l l' h h'
    obtain ⟨-, -, _, _, -, -, -, rfl⟩ := boundaryConstraints_ok h
    obtain ⟨-, -, _, _, -, -, -, rfl⟩ := boundaryConstraints_ok h'
    rfl

theorem foldl_memoryProduct (z α : FE) (memory : HMap FE FE) :
    memory.foldl (fun product e => product * (z - (e.1 + α * e.2))) 1 = memoryProduct z α memory := by
  unfold memoryProduct
  rw [← one_mul (List.prod _)]
  generalize (1 : FE) = acc
  induction memory generalizing acc with
  | nil => simp
  | cons e l ih => rw [List.foldl_cons, ih, List.map_cons, List.prod_cons, mul_assoc]

theorem cairo_constraints {pi : PublicInputs} {n : Nat} {ch : RAPChallenges FE} (hs : pi.numSteps ≠ 0) (hn : n ≠ 0)
    {lo hi : UInt16} (hlo : pi.rangeCheckMin = some lo) (hhi : pi.rangeCheckMax = some hi)
    (hp : memoryProduct ch.zMemory ch.alphaMemory pi.publicMemory ≠ 0) :
    boundaryConstraints pi n ch = .ok [
      ⟨MEM_A_TRACE_OFFSET, 0, pi.pcInit⟩,
      ⟨MEM_P_TRACE_OFFSET, 0, pi.apInit⟩,
      ⟨MEM_A_TRACE_OFFSET, pi.numSteps - 1, pi.pcFinal⟩,
      ⟨MEM_P_TRACE_OFFSET, pi.numSteps - 1, pi.apFinal⟩,
      ⟨PERMUTATION_ARGUMENT_COL_0 + 3 - builtinOffset (hasRcBuiltin pi), n - 1,
        ch.zMemory ^ pi.publicMemory.length * (memoryProduct ch.zMemory ch.alphaMemory pi.publicMemory)⁻¹⟩,
      ⟨PERMUTATION_ARGUMENT_RANGE_CHECK_COL_1 + 2 - builtinOffset (hasRcBuiltin pi), n - 1, 1⟩,
      ⟨RANGE_CHECK_COL_1 - builtinOffset (hasRcBuiltin pi), 0, (lo.toNat : FE)⟩,
      ⟨RANGE_CHECK_COL_3 - builtinOffset (hasRcBuiltin pi), n - 1, (hi.toNat : FE)⟩] := by
  unfold boundaryConstraints
  rw [if_neg (by simp [hs, hn]), hlo, hhi, foldl_memoryProduct, inv, if_neg hp]
  rfl

theorem changedInput_same {pi pi' : PublicInputs} {k : Nat} (hc : ChangedInput pi k pi') :
    hasRcBuiltin pi' = hasRcBuiltin pi := by cases hc <;> rfl

theorem u16_cast_ne {u v : UInt16} (h : u ≠ v) : ((u.toNat : FE)) ≠ (v.toNat : FE) := by
  intro he
  have := u.toNat_lt
  have := v.toNat_lt
  exact h (UInt16.toNat.inj ((natCast_inj_of_lt (ExecTrace.u64_lt_P (by omega)) (ExecTrace.u64_lt_P (by omega))).mp he))

theorem changedInput_constraints {pi pi' : PublicInputs} {k : Nat} (hc : ChangedInput pi k pi') {n : Nat}
    {ch : RAPChallenges FE} {boundary : List (BoundaryConstraint FE)} (h : boundaryConstraints pi n ch = .ok boundary) :
    ∃ c v, boundary[k]? = some c ∧ v ≠ c.value ∧
      boundaryConstraints pi' n ch = .ok (boundary.set k { c with value := v }) := by
  obtain ⟨h1, h2, lo, hi, h3, h4, h5, rfl⟩ := boundaryConstraints_ok h
  rw [foldl_memoryProduct] at *
  cases hc with
  | pcInit v hv => exact ⟨_, v, rfl, hv, cairo_constraints (pi := { pi with pcInit := v }) h1 h2 h3 h4 h5⟩
  | apInit v hv => exact ⟨_, v, rfl, hv, cairo_constraints (pi := { pi with apInit := v }) h1 h2 h3 h4 h5⟩
  | pcFinal v hv => exact ⟨_, v, rfl, hv, cairo_constraints (pi := { pi with pcFinal := v }) h1 h2 h3 h4 h5⟩
  | apFinal v hv => exact ⟨_, v, rfl, hv, cairo_constraints (pi := { pi with apFinal := v }) h1 h2 h3 h4 h5⟩
  | rangeCheckMin v hv =>
    exact ⟨_, v.toNat, rfl, u16_cast_ne (fun he => hv (by rw [h3, he])),
      cairo_constraints (pi := { pi with rangeCheckMin := some v }) h1 h2 rfl h4 h5⟩
  | rangeCheckMax v hv =>
    exact ⟨_, v.toNat, rfl, u16_cast_ne (fun he => hv (by rw [h4, he])),
      cairo_constraints (pi := { pi with rangeCheckMax := some v }) h1 h2 h3 rfl h5⟩

/-- **C77**, for Cairo: a proof that is accepted for `pi` is rejected, without a panic, when the initial or final
`pc`, the initial or final `ap`, or a bound of the range checks is replaced by another value, unless the two
coefficients `α`, `β` drawn for this value and the out-of-domain point `z` satisfy `α z^n + β = 0`. -/
theorem C77_cairo_changed_input_partial {pi pi' : PublicInputs} {k : Nat} (hc : ChangedInput pi k pi')
    {options : ProofOptions} {a b : Nat} (S : Setting (air (2 ^ a) pi options) a b) {proof : StarkProof FE}
    (hlen : proof.traceLength = 2 ^ a) (W : WellFormed (air (2 ^ a) pi options) proof (a + b))
    (h : verifyCairoProof env proof pi options = .ok true) :
    ∃ r g w, verifyCairoProof env proof pi' options = .ok r ∧ env.ta.root a = some g ∧
      env.ta.root (a + b) = some w ∧
      (∃ boundary x, Replays env (air (2 ^ a) pi options) proof boundary a b g w x) ∧
      ∀ boundary x, Replays env (air (2 ^ a) pi options) proof boundary a b g w x →
        ∃ α β, x.alphaB[k]? = some α ∧ x.betaB[k]? = some β ∧
          (r = true ↔ env.ofDigest α * env.ofDigest x.point ^ 2 ^ a + env.ofDigest β = 0) := by
  have hair : CairoAir.new proof.traceLength pi options = .ok (air (2 ^ a) pi options) := by rw [hlen]; rfl
  have hair' : CairoAir.new proof.traceLength pi' options = .ok (air (2 ^ a) pi' options) := by rw [hlen]; rfl
  have B := cairo_same (changedInput_same hc) (2 ^ a) options
  obtain ⟨r, hr⟩ := C77_answers hair hair' B (fun _ l _ hl => by
    obtain ⟨c, v, h1, -, h3⟩ := changedInput_constraints hc hl
    refine ⟨_, h3, ?_⟩
    exact set_cells h1 _) h
  obtain ⟨g, w, hg, hw, hex, hall⟩ := C77_changed_value_partial hair hair' rfl S W B (k := k) (fun ch l l' hl hl' => by
    obtain ⟨c, v, h1, h2, h3⟩ := changedInput_constraints hc hl
    exact ⟨c, v, h1, h2, Outcome.ok.inj (hl'.symm.trans h3)⟩) h hr
  refine ⟨r, g, w, hr, hg, hw, hex, fun boundary x R => ?_⟩
  obtain ⟨α, β, h1, h2, h3⟩ := hall boundary x R
  refine ⟨α, β, h1, h2, ?_⟩
  rwa [show (air (2 ^ a) pi options).compositionPolyDegreeBound - (air (2 ^ a) pi options).traceLength = 2 ^ a by
    show 2 * 2 ^ a - 2 ^ a = 2 ^ a; omega] at h3

/-- **C77**, for another public memory: the proof is rejected unless the products that stand for the two memories
agree, or the coefficients drawn for this constraint vanish. (If the product for the other memory is zero, the verifier
panics.) -/
theorem C77_cairo_changed_memory_partial {pi : PublicInputs} (memory : HMap FE FE)
    {options : ProofOptions} {a b : Nat} (S : Setting (air (2 ^ a) pi options) a b) {proof : StarkProof FE}
    (hlen : proof.traceLength = 2 ^ a) (W : WellFormed (air (2 ^ a) pi options) proof (a + b))
    (h : verifyCairoProof env proof pi options = .ok true) {r : Bool}
    (h' : verifyCairoProof env proof { pi with publicMemory := memory } options = .ok r) :
    ∃ g w, env.ta.root a = some g ∧ env.ta.root (a + b) = some w ∧
      (∃ boundary x, Replays env (air (2 ^ a) pi options) proof boundary a b g w x) ∧
      ∀ boundary x, Replays env (air (2 ^ a) pi options) proof boundary a b g w x →
        ∃ α β alphaMemory zMemory, x.alphaB[4]? = some α ∧ x.betaB[4]? = some β ∧
          x.rap[0]? = some alphaMemory ∧ x.rap[1]? = some zMemory ∧
          let z := env.ofDigest zMemory
          let αm := env.ofDigest alphaMemory
          (r = true ↔
            z ^ memory.length * memoryProduct z αm pi.publicMemory
              = z ^ pi.publicMemory.length * memoryProduct z αm memory ∨
            env.ofDigest α * env.ofDigest x.point ^ 2 ^ a + env.ofDigest β = 0) := by
  have hair : CairoAir.new proof.traceLength pi options = .ok (air (2 ^ a) pi options) := by rw [hlen]; rfl
  have hair' : CairoAir.new proof.traceLength { pi with publicMemory := memory } options
      = .ok (air (2 ^ a) { pi with publicMemory := memory } options) := by rw [hlen]; rfl
  have B := cairo_same (pi := pi) (pi' := { pi with publicMemory := memory }) rfl (2 ^ a) options
  obtain ⟨g, w, hg, hw, hex, hall⟩ := changed_value_iff hair hair' rfl S W B (k := 4) (fun ch l l' hl hl' => by
    obtain ⟨h1, h2, lo, hi, h3, h4, h5, rfl⟩ := boundaryConstraints_ok hl
    obtain ⟨-, -, lo', hi', h3', h4', h5', rfl⟩ := boundaryConstraints_ok hl'
    obtain rfl := Option.some.inj (h3.symm.trans h3')
    obtain rfl := Option.some.inj (h4.symm.trans h4')
    exact ⟨_, _, rfl, rfl⟩) h h'
  refine ⟨g, w, hg, hw, hex, fun boundary x R => ?_⟩
  obtain ⟨α, β, c, v, hα, hβ, hc, hb', hiff⟩ := hall boundary x R
  have hrap : x.rap.length = 3 := R.rap
  have h0 : 0 < x.rap.length := by omega
  have h1 : 1 < x.rap.length := by omega
  refine ⟨α, β, _, _, hα, hβ, List.getElem?_eq_getElem h0, List.getElem?_eq_getElem h1, ?_⟩
  dsimp only
  rw [show (air (2 ^ a) pi options).compositionPolyDegreeBound - (air (2 ^ a) pi options).traceLength = 2 ^ a by
    show 2 * 2 ^ a - 2 ^ a = 2 ^ a; omega] at hiff
  rw [hiff]
  refine or_congr ?_ Iff.rfl
  have hb := R.constraints
  have hch : (air (2 ^ a) pi options).rapChallenges (x.rap.map env.ofDigest)
      = ⟨env.ofDigest x.rap[0], env.ofDigest x.rap[1], env.ofDigest x.rap[2]⟩ := by
    show (⟨_, _, _⟩ : RAPChallenges FE) = _
    simp [List.getD_eq_getElem?_getD, h0, h1, show 2 < x.rap.length by omega]
  rw [hch] at hb hb'
  obtain ⟨-, -, lo, hi, -, -, hp, rfl⟩ := boundaryConstraints_ok hb
  obtain ⟨-, -, lo', hi', -, -, hp', he⟩ := boundaryConstraints_ok hb'
  obtain rfl := Option.some.inj hc
  simp only [List.set_cons_succ, List.set_cons_zero, List.cons.injEq, BoundaryConstraint.mk.injEq] at he
  obtain rfl : v = _ := he.2.2.2.2.1.2.2
  rw [foldl_memoryProduct] at hp hp' ⊢
  rw [foldl_memoryProduct]
  dsimp only at hp hp' ⊢
  rw [← div_eq_mul_inv, ← div_eq_mul_inv, div_eq_div_iff hp' hp]

/-- **C77**: memories that differ in more than cells with address and value zero have different products, for all but
few challenges: outside a set of at most `4 (n + m)^2` values of `α`, at most `n + m` values of `z` are bad. -/
theorem C77_memories_distinguished_partial {memory memory' : HMap FE FE}
    (hne : ¬ (memory.filter (· ≠ (0, 0))).Perm (memory'.filter (· ≠ (0, 0)))) :
    ∃ A : Finset FE, A.card ≤ (2 * (memory.length + memory'.length)) ^ 2 ∧ ∀ α ∉ A,
      ∃ Z : Finset FE, Z.card ≤ memory.length + memory'.length ∧ ∀ z ∉ Z,
        z ^ memory'.length * memoryProduct z α memory ≠ z ^ memory.length * memoryProduct z α memory' := by
  classical
  let l : List (FE × FE) := memory ++ List.replicate memory'.length (0, 0)
  let l' : List (FE × FE) := memory' ++ List.replicate memory.length (0, 0)
  have hl : l.length = memory.length + memory'.length := by simp [l]
  have hl' : l'.length = memory.length + memory'.length := by simp [l', add_comm]
  let keys := fun (α : FE) (l : List (FE × FE)) => l.map fun e => e.1 + α * e.2
  refine ⟨Finset.univ.filter fun α => (keys α l).Perm (keys α l'), ?_, fun α hα => ?_⟩
  · by_contra hcon
    have hp := perm_of_keys (l₁ := l) (l₂ := l') (Finset.univ.filter fun α => (keys α l).Perm (keys α l'))
      (by rw [hl, hl', ← two_mul]; omega) (fun α hα => (Finset.mem_filter.mp hα).2)
    refine hne ?_
    have := hp.filter (· ≠ (0, 0))
    have hz : ∀ n : Nat, (List.replicate n ((0 : FE), (0 : FE))).filter (· ≠ (0, 0)) = [] := by
      intro n
      rw [List.filter_eq_nil_iff]
      intro e he
      rw [List.eq_of_mem_replicate he]
      simp
    simp only [l, l', List.filter_append, hz, List.append_nil] at this
    exact this
  · refine ⟨Finset.univ.filter fun z => z ^ memory'.length * memoryProduct z α memory
      = z ^ memory.length * memoryProduct z α memory', ?_, fun z hz he => hz (by simp [he])⟩
    by_contra hcon
    refine hα (Finset.mem_filter.mpr ⟨Finset.mem_univ _, ?_⟩)
    refine perm_of_products (by simp [keys, hl, hl']) _ (by simp only [keys, List.length_map, hl]; exact not_le.mp hcon)
      fun z hz => ?_
    have := (Finset.mem_filter.mp hz).2
    simp only [keys, l, l', List.map_append, List.map_map, List.prod_append, List.map_replicate, List.prod_replicate,
      mul_zero, add_zero, sub_zero]
    rw [mul_comm, mul_comm (List.prod _)]
    exact this

/-- **C77**: for another public memory the verifier answers if the product for the drawn challenges is not zero. -/
theorem C77_cairo_memory_answers {pi : PublicInputs} (memory : HMap FE FE) {options : ProofOptions}
    {proof : StarkProof FE} (h : verifyCairoProof env proof pi options = .ok true)
    (hp : ∀ root, proof.ldeTraceMerkleRoots[0]? = some root →
      let ch := (buildRapChallenges env (air proof.traceLength pi options) (env.tr.append env.tr.init root.val)).1
      memoryProduct ch.zMemory ch.alphaMemory memory ≠ 0) :
    ∃ r, verifyCairoProof env proof { pi with publicMemory := memory } options = .ok r := by
  refine C77_answers (air := air proof.traceLength pi options)
    (air' := air proof.traceLength { pi with publicMemory := memory } options) rfl rfl
    (cairo_same (pi := pi) (pi' := { pi with publicMemory := memory }) rfl _ _)
    (fun root l hroot hl => ?_) h
  obtain ⟨h1, h2, lo, hi, h3, h4, h5, rfl⟩ := boundaryConstraints_ok hl
  exact ⟨_, cairo_constraints (pi := { pi with publicMemory := memory }) h1 h2 h3 h4 (hp root hroot), rfl⟩

/-- **C77**, what is not bound: a cell with address and value zero can be added to the public memory (if the
challenge `z` is not zero; if it is, the verifier panics). -/
theorem C77_zero_cell {pi : PublicInputs} {options : ProofOptions} {a b : Nat}
    (S : Setting (air (2 ^ a) pi options) a b) {proof : StarkProof FE}
    (hlen : proof.traceLength = 2 ^ a) (W : WellFormed (air (2 ^ a) pi options) proof (a + b))
    (h : verifyCairoProof env proof pi options = .ok true)
    (hz : ∀ root, proof.ldeTraceMerkleRoots[0]? = some root →
      (buildRapChallenges env (air proof.traceLength pi options) (env.tr.append env.tr.init root.val)).1.zMemory ≠ 0) :
    verifyCairoProof env proof { pi with publicMemory := (0, 0) :: pi.publicMemory } options = .ok true := by
  obtain ⟨r, hr⟩ := C77_cairo_memory_answers ((0, 0) :: pi.publicMemory) h (fun root hroot => by
    have h0 := hz root hroot
    obtain ⟨-, air0, d, c, t, h1, -, hs, -⟩ := verify_true h
    obtain rfl := Outcome.ok.inj h1
    obtain ⟨boundary, hb⟩ := step1_boundary hs
    obtain ⟨root', hroot', hch⟩ := step1_rap hs
    obtain rfl := Option.some.inj (hroot.symm.trans hroot')
    rw [hch] at hb
    obtain ⟨-, -, _, _, -, -, h5, -⟩ := boundaryConstraints_ok hb
    rw [foldl_memoryProduct] at h5
    simp only [memoryProduct, List.map_cons, List.prod_cons, mul_zero, add_zero, sub_zero]
    exact mul_ne_zero h0 h5)
  obtain ⟨g, w, -, -, ⟨boundary, x, R⟩, hall⟩ := C77_cairo_changed_memory_partial _ S hlen W h hr
  obtain ⟨α, β, am, zm, -, -, -, -, hiff⟩ := hall boundary x R
  rw [hr]
  refine congrArg Outcome.ok (hiff.mpr (Or.inl ?_))
  simp only [memoryProduct, List.map_cons, List.prod_cons, List.length_cons]
  ring

/-- **C77**, what is not bound: a proof that is accepted for one statement is accepted for many. Whatever initial
`pc` is claimed, an initial `ap` can be computed from the proof for which it is accepted, unless the coefficients drawn
for `ap` vanish. -/
theorem C77_cairo_proof_transfers {pi : PublicInputs} {options : ProofOptions} {a b : Nat}
    (S : Setting (air (2 ^ a) pi options) a b) {proof : StarkProof FE}
    (hlen : proof.traceLength = 2 ^ a) (W : WellFormed (air (2 ^ a) pi options) proof (a + b))
    (h : verifyCairoProof env proof pi options = .ok true) :
    ∃ g w, env.ta.root a = some g ∧ env.ta.root (a + b) = some w ∧
      (∃ boundary x, Replays env (air (2 ^ a) pi options) proof boundary a b g w x) ∧
      ∀ boundary x, Replays env (air (2 ^ a) pi options) proof boundary a b g w x →
        ∃ α β, x.alphaB[1]? = some α ∧ x.betaB[1]? = some β ∧
          (env.ofDigest α * env.ofDigest x.point ^ 2 ^ a + env.ofDigest β ≠ 0 →
            ∀ pc, ∃ ap, verifyCairoProof env proof { pi with pcInit := pc, apInit := ap } options = .ok true) := by
  have hair : CairoAir.new proof.traceLength pi options = .ok (air (2 ^ a) pi options) := by rw [hlen]; rfl
  have hair' : ∀ pc ap, CairoAir.new proof.traceLength { pi with pcInit := pc, apInit := ap } options
      = .ok (air (2 ^ a) { pi with pcInit := pc, apInit := ap } options) := by rw [hlen]; exact fun _ _ => rfl
  have B := fun pc ap => cairo_same (pi := pi) (pi' := { pi with pcInit := pc, apInit := ap }) rfl (2 ^ a) options
  have hset : ∀ (pc ap : FE) ch l, boundaryConstraints pi (2 ^ a) ch = .ok l →
      ∃ c0 c1, l[0]? = some c0 ∧ l[1]? = some c1 ∧ c0.step = 0 ∧ c1.step = 0 ∧
        c0.value = pi.pcInit ∧ c1.value = pi.apInit ∧
        boundaryConstraints { pi with pcInit := pc, apInit := ap } (2 ^ a) ch
          = .ok ((l.set 0 { c0 with value := pc }).set 1 { c1 with value := ap }) := by
    intro pc ap ch l hl
    obtain ⟨h1, h2, lo, hi, h3, h4, h5, rfl⟩ := boundaryConstraints_ok hl
    rw [foldl_memoryProduct] at *
    exact ⟨_, _, rfl, rfl, rfl, rfl, rfl, rfl,
      cairo_constraints (pi := { pi with pcInit := pc, apInit := ap }) h1 h2 h3 h4 h5⟩
  have hans : ∀ pc ap, ∃ r, verifyCairoProof env proof { pi with pcInit := pc, apInit := ap } options = .ok r := by
    intro pc ap
    refine C77_answers hair (hair' pc ap) (B pc ap) (fun _ l _ hl => ?_) h
    obtain ⟨c0, c1, h0, h1, -, -, -, -, he⟩ := hset pc ap _ l hl
    refine ⟨_, he, ?_⟩
    rw [set_cells (by rw [List.getElem?_set_ne (by decide)]; exact h1), set_cells h0]
  obtain ⟨r0, hr0⟩ := hans 0 0
  obtain ⟨g, w, hg, hw, hex, -⟩ := C77_other_inputs hair (hair' 0 0) rfl S W (B 0 0) h hr0
  refine ⟨g, w, hg, hw, hex, fun boundary x R => ?_⟩
  have hl : boundary.length = 8 := by
    obtain ⟨-, -, _, _, -, -, -, rfl⟩ := boundaryConstraints_ok R.constraints
    rfl
  have a0 : 0 < x.alphaB.length := by rw [R.alphaB]; omega
  have a1 : 1 < x.alphaB.length := by rw [R.alphaB]; omega
  have b0 : 0 < x.betaB.length := by rw [R.betaB]; omega
  have b1 : 1 < x.betaB.length := by rw [R.betaB]; omega
  refine ⟨_, _, List.getElem?_eq_getElem a1, List.getElem?_eq_getElem b1, fun hk pc => ?_⟩
  set k0 := env.ofDigest x.alphaB[0] * env.ofDigest x.point ^ 2 ^ a + env.ofDigest x.betaB[0] with hk0
  set k1 := env.ofDigest x.alphaB[1] * env.ofDigest x.point ^ 2 ^ a + env.ofDigest x.betaB[1] with hk1
  refine ⟨pi.apInit + (pi.pcInit - pc) * k0 / k1, ?_⟩
  obtain ⟨r, hr⟩ := hans pc (pi.apInit + (pi.pcInit - pc) * k0 / k1)
  obtain ⟨g', w', hg', hw', -, hall⟩ := C77_other_inputs hair (hair' _ _) rfl S W (B _ _) h hr
  obtain rfl := Option.some.inj (hg.symm.trans hg')
  obtain rfl := Option.some.inj (hw.symm.trans hw')
  obtain ⟨boundary', hb', hiff⟩ := hall boundary x R
  obtain ⟨c0, c1, h0, h1, s0, s1, v0, v1, he⟩ := hset pc _ _ _ R.constraints
  obtain rfl := Outcome.ok.inj (hb'.symm.trans he)
  rw [hr]
  refine congrArg Outcome.ok (hiff.mpr ?_)
  have coef : ∀ k (ha : k < x.alphaB.length) (hb : k < x.betaB.length),
      (x.challenges env (air (2 ^ a) pi options) proof (a + b)).boundaryCoeffs[k]?
        = some (env.ofDigest x.alphaB[k], env.ofDigest x.betaB[k]) := by
    intro k ha hb
    show ((x.alphaB.map env.ofDigest).zip (x.betaB.map env.ofDigest))[k]? = _
    rw [List.getElem?_zip_eq_some]
    simp [ha, hb]
  dsimp only
  rw [boundaryAt_set _ _ _ _ _ _ _ (by rw [List.getElem?_set_ne (by decide)]; exact h1) (coef 1 a1 b1),
    boundaryAt_set _ _ _ _ _ _ _ h0 (coef 0 a0 b0), s0, s1, v0, v1,
    show (air (2 ^ a) pi options).compositionPolyDegreeBound - (air (2 ^ a) pi options).traceLength = 2 ^ a by
      show 2 * 2 ^ a - 2 ^ a = 2 ^ a; omega]
  have hz : env.ofDigest x.point - g ^ 0 ≠ 0 := point_ne S.rows hg R 0
  show _ + _ / (env.ofDigest x.point - g ^ 0) * k0 + _ / (env.ofDigest x.point - g ^ 0) * k1 = _
  field_simp
  ring

/-- **C77**, what is not bound: the initial `fp` and the contents of the segment table are part of the public inputs,
but another `fp`, and other segments (unless there were none), give the same verdict on every proof. -/
theorem C77_ignored_inputs (pi : PublicInputs) (fp : FE) (segments : MemorySegmentMap)
    (hs : segments.isEmpty = pi.memorySegments.isEmpty) (proof : StarkProof FE) (options : ProofOptions) :
    verifyCairoProof env proof { pi with fpInit := fp, memorySegments := segments } options
      = verifyCairoProof env proof pi options := by
  have hrc : hasRcBuiltin { pi with fpInit := fp, memorySegments := segments } = hasRcBuiltin pi := by
    unfold hasRcBuiltin
    rw [hs]
  have : air proof.traceLength { pi with fpInit := fp, memorySegments := segments } options
      = { air proof.traceLength pi options with buildAuxiliaryTrace :=
          (air proof.traceLength { pi with fpInit := fp, memorySegments := segments } options).buildAuxiliaryTrace } := by
    unfold air boundaryConstraints
    rw [hrc]
  unfold verifyCairoProof verify CairoAir.new
  rw [this]
  rfl

/-! ## The hypotheses are met -/

open Examples in
theorem accepted_example : ∃ proof : StarkProof FE, proof.traceLength = 2 ^ 1 ∧ proof.ldeTraceMerkleRoots.length = 1 ∧
    WellFormed (air (2 ^ 1) falseStatement ProofOptions.defaultTestOptions) proof (1 + 2) ∧
    verifyCairoProof envStark proof falseStatement ProofOptions.defaultTestOptions = .ok true := by
  have key := C46_forged_proof_accepted (env := envStark) (new := CairoAir.new) (pi := falseStatement)
    (cairo_setting (a := 1) le_rfl falseStatement) (by norm_num) (by show _ < 192; norm_num) three_not_square rfl
    rfl (fun ch => ⟨_, air_polynomial _ _ _ ch⟩) (digest 0) (digest 0) (by
      obtain ⟨cs, hcs⟩ := boundary_exists falseStatement (by decide) (by decide) (by decide) (n := 2 ^ 1) (by positivity)
        _ (fun e he => by cases he)
      exact ⟨cs, hcs, boundary_columns hcs⟩)
    (samplingEnds_of (cairo_setting le_rfl falseStatement)
      fun lde trace t h1 h2 => sampleZOodStark lde trace t (by rw [h1, h2]; norm_num)) generateNonce_stark (rows := List.replicate 2 (List.replicate 52 0)) rfl
    (fun r hr => by rw [(List.mem_replicate.mp hr).2, List.length_replicate]; rfl) 0 0 le_rfl
  obtain ⟨even, nonce, -, h⟩ := key
  exact ⟨_, rfl, rfl, ⟨by simp, rfl, by simp [air, hasRcBuiltin, falseStatement, traceColumns], by simp,
    by simp, by simp⟩, h⟩

open Examples in
theorem samplesStark (n : Nat) (t : UInt8) :
    envStark.samples n t = ((List.range n).map fun i => (((t + UInt8.ofNat i).toNat : Nat) : FE), t + UInt8.ofNat n) := by
  induction n generalizing t with
  | zero => simp [Env.samples, Transcript.batchSample]
  | succ n ih =>
    have := ih (t + 1)
    unfold Env.samples at this ⊢
    have hs : ∀ i : Nat, t + 1 + UInt8.ofNat i = t + UInt8.ofNat (i + 1) := by
      intro i
      rw [Nat.add_comm i 1, UInt8.ofNat_add, ← UInt8.add_assoc]
      rfl
    rw [Transcript.batchSample, toFieldStark]
    simp only [this, hs, List.range_succ_eq_map, List.map_cons, List.map_map]
    simp [Function.comp_def]

open Examples in
/-- In the examples, the coefficients drawn for the boundary constraints are small numbers. -/
theorem coefficients_example {proof : StarkProof FE} (hroots : proof.ldeTraceMerkleRoots.length = 1)
    {boundary : List (BoundaryConstraint FE)} {g w : FE} {x : Drawn}
    (R : Replays envStark (air (2 ^ 1) falseStatement ProofOptions.defaultTestOptions) proof boundary 1 2 g w x)
    {k : Nat} (hk : k < 8) {α β : Commitment} (hα : x.alphaB[k]? = some α) (hβ : x.betaB[k]? = some β) :
    envStark.ofDigest α * envStark.ofDigest x.point ^ 2 ^ 1 + envStark.ofDigest β ≠ 0 := by
  have hl : boundary.length = 8 := by
    have hc : boundaryConstraints falseStatement (2 ^ 1) _ = .ok boundary := R.constraints
    obtain ⟨-, -, _, _, -, -, -, rfl⟩ := boundaryConstraints_ok hc
    rfl
  obtain ⟨t, ht⟩ := R.happens
  unfold protocolEvents at ht
  obtain ⟨root, hroot⟩ := List.length_eq_one_iff.mp hroots
  rw [hroot] at ht
  simp only [happens_append] at ht
  obtain ⟨_, ⟨_, ⟨_, ⟨_, ⟨_, ⟨_, ⟨_, ⟨_, ⟨_, ⟨_, ⟨_, ⟨_, ⟨_, ⟨_, ⟨_, ⟨s0, h0, h1⟩, h2⟩, h3⟩, h4⟩, -⟩, -⟩, -⟩, -⟩, -⟩, -⟩, -⟩,
    -⟩, -⟩, -⟩, -⟩, -⟩ := ht
  obtain rfl : (0 : UInt8) = s0 := h0
  have e1 := samples_of_draws h1
  rw [show x.rap.length = 3 from R.rap, samplesStark] at e1
  obtain rfl : (3 : UInt8) = _ := (Prod.mk.inj e1).2
  obtain rfl : (3 : UInt8) = _ := h2
  have e3 := samples_of_draws h3
  rw [R.alphaB, hl, samplesStark] at e3
  obtain rfl : (11 : UInt8) = _ := (Prod.mk.inj e3).2
  replace e3 := (Prod.mk.inj e3).1
  have e5 := samples_of_draws h4
  rw [R.betaB, hl, samplesStark] at e5
  replace e5 := (Prod.mk.inj e5).1
  have hA : envStark.ofDigest α = ((3 + k : Nat) : FE) := by
    have := congrArg (fun l : List FE => l[k]?) e3
    simp only [List.getElem?_map, hα, List.getElem?_range hk, Option.map_some, Option.some.injEq] at this
    rw [← this]
    interval_cases k <;> rfl
  have hB : envStark.ofDigest β = ((11 + k : Nat) : FE) := by
    have := congrArg (fun l : List FE => l[k]?) e5
    simp only [List.getElem?_map, hβ, List.getElem?_range hk, Option.map_some, Option.some.injEq] at this
    rw [← this]
    interval_cases k <;> rfl
  have hz : envStark.ofDigest x.point = (((x.point.val.getLastD 0).toNat : Nat) : FE) := rfl
  have hlt := (x.point.val.getLastD 0).toNat_lt
  generalize (x.point.val.getLastD 0).toNat = n at hz hlt
  rw [hA, hB, hz]
  have hsq : n ^ 2 ≤ 2 ^ 16 := by
    have := Nat.pow_le_pow_left (show n ≤ 2 ^ 8 by omega) 2
    omega
  have hmul : (3 + k) * n ^ 2 ≤ 11 * 2 ^ 16 := Nat.mul_le_mul (by omega) hsq
  have h := (natCast_inj_of_lt (a := (3 + k) * n ^ 2 + (11 + k)) (b := 0) (ExecTrace.u64_lt_P (by omega))
    (ExecTrace.u64_lt_P (by omega))).not.mpr (by omega)
  push_cast at h ⊢
  exact h

open Examples in
/-- The hypotheses are met: a proof is accepted for `falseStatement`, and rejected when the final `pc` is replaced. -/
example : ∃ proof : StarkProof FE,
    verifyCairoProof envStark proof falseStatement ProofOptions.defaultTestOptions = .ok true ∧
    verifyCairoProof envStark proof { falseStatement with pcFinal := 5 } ProofOptions.defaultTestOptions = .ok false := by
  obtain ⟨proof, hlen, hroots, W, h⟩ := accepted_example
  obtain ⟨r, g, w, hr, -, -, ⟨boundary, x, R⟩, hall⟩ := C77_cairo_changed_input_partial
    (ChangedInput.pcFinal (pi := falseStatement) 5 (by decide +kernel)) (cairo_setting (a := 1) le_rfl falseStatement)
    hlen W h
  obtain ⟨α, β, hα, hβ, hiff⟩ := hall boundary x R
  refine ⟨proof, h, ?_⟩
  rw [hr, Bool.eq_false_iff.mpr fun he => coefficients_example hroots R (by decide) hα hβ (hiff.mp he)]

open Examples in
/-- The same proof is accepted for statements with any initial `pc`, and for one with another initial `fp`. -/
example : ∃ proof : StarkProof FE,
    verifyCairoProof envStark proof { falseStatement with fpInit := 9 } ProofOptions.defaultTestOptions = .ok true ∧
    ∀ pc, ∃ ap, verifyCairoProof envStark proof { falseStatement with pcInit := pc, apInit := ap }
      ProofOptions.defaultTestOptions = .ok true := by
  obtain ⟨proof, hlen, hroots, W, h⟩ := accepted_example
  obtain ⟨g, w, -, -, ⟨boundary, x, R⟩, hall⟩ := C77_cairo_proof_transfers
    (cairo_setting (a := 1) le_rfl falseStatement) hlen W h
  obtain ⟨α, β, hα, hβ, hk⟩ := hall boundary x R
  refine ⟨proof, ?_, hk (coefficients_example hroots R (by decide) hα hβ)⟩
  exact (C77_ignored_inputs falseStatement 9 [] rfl proof _).trans h

open Examples in
/-- The same proof is accepted with a cell of zeros in the public memory and rejected with another cell. -/
example : ∃ proof : StarkProof FE,
    verifyCairoProof envStark proof { falseStatement with publicMemory := [(0, 0)] }
      ProofOptions.defaultTestOptions = .ok true ∧
    verifyCairoProof envStark proof { falseStatement with publicMemory := [(3, 0)] }
      ProofOptions.defaultTestOptions = .ok false := by
  obtain ⟨proof, hlen, hroots, W, h⟩ := accepted_example
  have S := cairo_setting (a := 1) le_rfl falseStatement
  have hone : (((0 : UInt8) + 1).toNat : FE) = 1 := Nat.cast_one
  refine ⟨proof, C77_zero_cell S hlen W h (fun root _ => ?_), ?_⟩
  · show (((0 : UInt8) + 1).toNat : FE) ≠ 0
    rw [hone]
    exact one_ne_zero
  have h3 : (1 : FE) - (3 + 0 * 0) ≠ 0 := by decide +kernel
  obtain ⟨r, hr⟩ := C77_cairo_memory_answers [(3, 0)] h (fun root _ => by
    show ([(((0 : UInt8) + 1).toNat : FE) - (3 + (((0 : UInt8)).toNat : FE) * 0)]).prod ≠ 0
    rw [hone]
    simpa using h3)
  obtain ⟨g, w, -, -, ⟨boundary, x, R⟩, hall⟩ := C77_cairo_changed_memory_partial _ S hlen W h hr
  obtain ⟨α, β, am, zm, hα, hβ, -, -, hiff⟩ := hall boundary x R
  rw [hr]
  refine congrArg Outcome.ok (Bool.eq_false_iff.mpr fun he => ?_)
  rcases hiff.mp he with h1 | h1
  · have h3 : (3 : FE) = 0 := by
      simp [falseStatement, memoryProduct] at h1
      linear_combination h1
    exact absurd h3 (by decide +kernel)
  · exact coefficients_example hroots R (by decide) hα hβ h1

/-- The hypothesis of `C77_memories_distinguished_partial` is met. -/
example : ¬ (([(1, 2), (0, 0)] : HMap FE FE).filter (· ≠ (0, 0))).Perm (([(1, 3)] : HMap FE FE).filter (· ≠ (0, 0))) := by
  decide +kernel

end Verif.Props
