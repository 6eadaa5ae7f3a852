import Verif.Props.RandomForge
import Verif.Props.Inputs
import Verif.Props.Unsatisfied

/-!
# C77 and C79 with drawn digests: honest proofs of something else are rejected except with small probability
-/

namespace Verif.Props
open Runner Cli Verif.Spec Random Proximity CairoAir ExecTrace Transcript TraceTable
variable {T : Type} {env : Env FE T}

section answering
variable {F T : Type} [Field F] [DecidableEq F] {Ch : Type} (env : Env F T) (rest : Nat → Commitment) {s r m : Nat}
  (ρ : Fin s → Commitment) (ζ : Fin r → Commitment) (κ : Fin m → Commitment)

omit [DecidableEq F] in
theorem answering_draws (l : List Commitment) (n t : Nat)
    (h : Happens (answering env rest ρ ζ κ).tr (l.map .draw) n t) :
    t = n + l.length ∧
      l = (List.range l.length).map fun i => ((answering env rest ρ ζ κ).tr.challenge (n + i)).1 := by
  induction l generalizing n with
  | nil => exact ⟨Eq.symm h, rfl⟩
  | cons x l ih =>
    obtain ⟨h1, h2⟩ := h
    obtain ⟨h3, h4⟩ := ih (n + 1) h2
    refine ⟨by rw [h3, List.length_cons]; omega, ?_⟩
    rw [List.length_cons, List.range_succ_eq_map, List.map_cons, List.map_map]
    refine congrArg₂ List.cons h1.symm (h4.trans (List.map_congr_left fun i _ => ?_))
    show _ = ((answering env rest ρ ζ κ).tr.challenge (n + (i + 1))).1
    rw [show n + 1 + i = n + (i + 1) by omega]

omit [DecidableEq F] in
theorem answering_sends {α : Type} {f : α → Bytes} (l : List α) (n t : Nat)
    (h : Happens (answering env rest ρ ζ κ).tr (l.map fun v => .send (f v)) n t) : t = n := by
  rw [happens_sends] at h
  rw [h]
  clear h
  induction l with
  | nil => rfl
  | cons x l ih => exact ih

omit [DecidableEq F] in
/-- What is drawn in an interaction in which the digests are given. -/
theorem answering_replays {air : Air F Ch} {proof : StarkProof F} {boundary : List (BoundaryConstraint F)} {a b : Nat}
    {g w : F} {x : Drawn} (R : Replays (answering env rest ρ ζ κ) air proof boundary a b g w x) :
    let drawn := fun n k => (List.range k).map fun i => ((answering env rest ρ ζ κ).tr.challenge (n + i)).1
    let nb := boundary.length
    let nt := air.context.numTransitionConstraints
    let n := air.numRapChallenges
    x.rap = drawn 0 n ∧ x.alphaB = drawn n nb ∧ x.betaB = drawn (n + nb) nb ∧
      x.alphaT = drawn (n + 2 * nb) nt ∧ x.betaT = drawn (n + 2 * nb + nt) nt ∧
      x.rejected = drawn (n + 2 * nb + 2 * nt) x.rejected.length ∧
      x.point = ((answering env rest ρ ζ κ).tr.challenge (n + 2 * nb + 2 * nt + x.rejected.length)).1 := by
  intro drawn nb nt n
  obtain ⟨t, h⟩ := R.happens
  unfold protocolEvents at h
  simp only [happens_append] at h
  obtain ⟨_, ⟨_, ⟨_, ⟨_, ⟨_, ⟨_, ⟨_, ⟨t8, ⟨t7, ⟨t6, ⟨t5, ⟨t4, ⟨t3, ⟨t2, ⟨t1, ⟨t0, h0, h1⟩, h2⟩,
    h3⟩, h4⟩, h5⟩, h6⟩, h7⟩, h8⟩, h9⟩, _⟩, _⟩, _⟩, _⟩, _⟩, _⟩, _⟩ := h
  have e0 := answering_sends env rest ρ ζ κ _ _ _ h0
  have e0' : t0 = 0 := e0
  subst e0'
  obtain ⟨e1, d1⟩ := answering_draws env rest ρ ζ κ _ _ _ h1
  have e2 := answering_sends env rest ρ ζ κ _ _ _ h2
  obtain ⟨e3, d3⟩ := answering_draws env rest ρ ζ κ _ _ _ h3
  obtain ⟨e4, d4⟩ := answering_draws env rest ρ ζ κ _ _ _ h4
  obtain ⟨e5, d5⟩ := answering_draws env rest ρ ζ κ _ _ _ h5
  obtain ⟨e6, d6⟩ := answering_draws env rest ρ ζ κ _ _ _ h6
  have e7 : t7 = t6 := Eq.symm h7
  obtain ⟨e8, d8⟩ := answering_draws env rest ρ ζ κ _ _ _ h8
  obtain ⟨d9, -⟩ := h9
  rw [R.rap] at e1 d1
  rw [R.alphaB] at e3 d3
  rw [R.betaB] at e4 d4
  rw [R.alphaT] at e5 d5
  rw [R.betaT] at e6 d6
  have f1 : t1 = n := by omega
  have f2 : t2 = n := by omega
  have f3 : t3 = n + nb := by omega
  have f4 : t4 = n + 2 * nb := by omega
  have f5 : t5 = n + 2 * nb + nt := by omega
  have f7 : t7 = n + 2 * nb + 2 * nt := by omega
  have f8 : t8 = n + 2 * nb + 2 * nt + x.rejected.length := by omega
  subst f2 f3 f4 f5 f7 f8
  exact ⟨d1, d3, d4, d5, d6, d8, d9.symm⟩

omit [DecidableEq F] in
theorem answering_before {j : Nat} (h : j < s) : ((answering env rest ρ ζ κ).tr.challenge j).1 = ρ ⟨j, h⟩ := by
  show (if h : j < s then ρ ⟨j, h⟩ else _) = _
  rw [dif_pos h]

omit [DecidableEq F] in
theorem answering_later (ρ' : Fin s → Commitment) {j : Nat} (h : s ≤ j) :
    ((answering env rest ρ ζ κ).tr.challenge j).1 = ((answering env rest ρ' ζ κ).tr.challenge j).1 := by
  show (if h : j < s then ρ ⟨j, h⟩ else _) = (if h : j < s then ρ' ⟨j, h⟩ else _)
  rw [dif_neg (Nat.not_lt.2 h), dif_neg (Nat.not_lt.2 h)]

omit [DecidableEq F] in
/-- The point does not depend on the digests drawn before. -/
theorem answering_point_eq {air : Air F Ch} {proof proof' : StarkProof F} {boundary boundary' : List (BoundaryConstraint F)}
    {a b : Nat} {g w : F} {x x' : Drawn} {ρ ρ' : Fin s → Commitment}
    (R : Replays (answering env rest ρ ζ κ) air proof boundary a b g w x)
    (R' : Replays (answering env rest ρ' ζ κ) air proof' boundary' a b g w x')
    (hs : s = air.numRapChallenges + 2 * boundary.length + 2 * air.context.numTransitionConstraints)
    (hs' : s = air.numRapChallenges + 2 * boundary'.length + 2 * air.context.numTransitionConstraints) :
    x.point = x'.point := by
  obtain ⟨-, -, -, -, -, h1, h2⟩ := answering_replays env rest ρ ζ κ R
  obtain ⟨-, -, -, -, -, h1', h2'⟩ := answering_replays env rest ρ' ζ κ R'
  rw [← hs] at h1 h2
  rw [← hs'] at h1' h2'
  have key : ∀ {ρ ρ' : Fin s → Commitment} {x x' : Drawn}
      (_ : ∀ digest ∈ x.rejected, OnDomains a b g w (air.context.proofOptions.cosetOffset : F) (env.ofDigest digest))
      (_ : ¬ OnDomains a b g w (air.context.proofOptions.cosetOffset : F) (env.ofDigest x'.point))
      (_ : x.rejected = (List.range x.rejected.length).map fun i =>
        ((answering env rest ρ ζ κ).tr.challenge (s + i)).1)
      (_ : x'.point = ((answering env rest ρ' ζ κ).tr.challenge (s + x'.rejected.length)).1),
      x.rejected.length ≤ x'.rejected.length := by
    intro ρ ρ' x x' hrej hpt hx hx'
    by_contra hlt
    refine hpt (hrej _ ?_)
    rw [hx', answering_later env rest ρ' ζ κ ρ (by omega), hx]
    exact List.mem_map.2 ⟨_, List.mem_range.2 (by omega), rfl⟩
  have hl : x.rejected.length = x'.rejected.length :=
    le_antisymm (key R.rejected R'.point h1 h2') (key R'.rejected R.point h1' h2)
  rw [h2, h2', hl]
  exact answering_later env rest ρ ζ κ ρ' (by omega)

end answering

theorem changedInput_lt {pi pi' : PublicInputs} {k : Nat} (hc : ChangedInput pi k pi') : k < 8 := by
  cases hc <;> norm_num

theorem boundary_eight {pi : PublicInputs} {n : Nat} {ch : RAPChallenges FE} {cs : List (BoundaryConstraint FE)}
    (h : boundaryConstraints pi n ch = .ok cs) : cs.length = 8 := by
  obtain ⟨-, -, lo, hi, -, -, -, rfl⟩ := boundaryConstraints_ok h
  rfl

theorem draws_eq {pi : PublicInputs} {s n : Nat} {options : ProofOptions}
    (hs : s = 3 + 2 * 8 + 2 * (if pi.memorySegments = [] then 49 else 50)) :
    s = (air n pi options).numRapChallenges + 2 * 8 + 2 * (air n pi options).context.numTransitionConstraints := by
  show s = 3 + 2 * 8 + 2 * numTransitionConstraints (hasRcBuiltin pi)
  rw [hs, show hasRcBuiltin pi = !pi.memorySegments.isEmpty from rfl]
  cases pi.memorySegments <;> rfl

/-- Digests that all stand for the same challenge have probability at most `1 / 2^251`. -/
theorem probability_unique (hof : ∀ d, randomnessToField 252 d = .ok (env.ofDigest d)) {P : Commitment → Prop}
    (h : ∀ x y, P x → P y → env.ofDigest x = env.ofDigest y) : probability Commitment P ≤ 1 / 2 ^ 251 := by
  by_cases hex : ∃ x, P x
  · obtain ⟨x, hx⟩ := hex
    refine (probability_mono (Q := fun y => env.ofDigest y ∈ [env.ofDigest x]) fun y hy => ?_).trans
      ((probability_challenge hof [env.ofDigest x]).trans (le_of_eq ?_))
    · rw [h y x hy hx]
      exact List.mem_singleton_self _
    · rw [List.length_singleton, Nat.cast_one]
  · refine (probability_mono (Q := fun y => env.ofDigest y ∈ ([] : List FE)) fun y hy => absurd ⟨y, hy⟩ hex).trans
      ((probability_challenge hof []).trans ?_)
    rw [List.length_nil, Nat.cast_zero, zero_div]
    positivity

/-- The coefficients drawn for the `k`-th boundary constraint and the point satisfy the equation of C77 with probability
at most `1 / 2^251`. -/
theorem equation_probability (hof : ∀ d, randomnessToField 252 d = .ok (env.ofDigest d))
    {pi : PublicInputs} {k : Nat} (hk : k < 8) {options : ProofOptions} {a b : Nat} (rest : Nat → Commitment)
    {s r n : Nat} (hs : s = 3 + 2 * 8 + 2 * (if pi.memorySegments = [] then 49 else 50))
    {P : (Fin s → Commitment) × (Fin r → Commitment) × (Fin n → Commitment) → Prop}
    (hP : ∀ ω, P ω → ∃ g w proof boundary x α β, env.ta.root a = some g ∧ env.ta.root (a + b) = some w ∧
      Replays (answering env rest ω.1 ω.2.1 ω.2.2) (air (2 ^ a) pi options) proof boundary a b g w x ∧
      x.alphaB[k]? = some α ∧ x.betaB[k]? = some β ∧
      env.ofDigest α * env.ofDigest x.point ^ 2 ^ a + env.ofDigest β = 0) :
    probability ((Fin s → Commitment) × (Fin r → Commitment) × (Fin n → Commitment)) P ≤ 1 / 2 ^ 251 := by
  have hs' := draws_eq (n := 2 ^ a) (options := options) hs
  have key : ∀ (ρ : Fin s → Commitment) (ζ : Fin r → Commitment) (κ : Fin n → Commitment), P (ρ, ζ, κ) →
      ∃ g w proof boundary x, env.ta.root a = some g ∧ env.ta.root (a + b) = some w ∧ boundary.length = 8 ∧
        Replays (answering env rest ρ ζ κ) (air (2 ^ a) pi options) proof boundary a b g w x ∧
        env.ofDigest (ρ ⟨11 + k, by omega⟩)
          = - (env.ofDigest (ρ ⟨3 + k, by omega⟩) * env.ofDigest x.point ^ 2 ^ a) := by
    intro ρ ζ κ h
    obtain ⟨g, w, proof, boundary, x, α, β, hg, hw, R, hα, hβ, he⟩ := hP _ h
    have hb : boundary.length = 8 := boundary_eight R.constraints
    obtain ⟨-, dα, dβ, -⟩ := answering_replays env rest ρ ζ κ R
    rw [dα] at hα
    rw [dβ] at hβ
    dsimp only at hα hβ
    rw [hb] at hα hβ
    rw [List.getElem?_map, List.getElem?_range hk, Option.map_some, Option.some.injEq] at hα hβ
    have ea : ((answering env rest ρ ζ κ).tr.challenge (3 + k)).1 = α := hα
    have eb : ((answering env rest ρ ζ κ).tr.challenge (11 + k)).1 = β := hβ
    rw [answering_before env rest ρ ζ κ (by omega)] at ea eb
    refine ⟨g, w, proof, boundary, x, hg, hw, hb, R, ?_⟩
    rw [ea, eb, eq_neg_iff_add_eq_zero, add_comm]
    exact he
  rw [← probability_equiv (Equiv.prodComm ((Fin r → Commitment) × (Fin n → Commitment)) (Fin s → Commitment))]
  refine probability_snd (by positivity) fun ζκ => ?_
  refine probability_coordinate ⟨11 + k, by omega⟩ (by positivity) fun l => ?_
  refine probability_unique hof fun y y0 hy hy0 => ?_
  obtain ⟨g, w, proof, boundary, x, hg, hw, hb, R, he⟩ := key _ _ _ hy
  obtain ⟨g0, w0, proof0, boundary0, x0, hg0, hw0, hb0, R0, he0⟩ := key _ _ _ hy0
  obtain rfl := Option.some.inj (hg.symm.trans hg0)
  obtain rfl := Option.some.inj (hw.symm.trans hw0)
  have hp := answering_point_eq env rest ζκ.1 ζκ.2 R R0 (by rw [hb]; exact hs') (by rw [hb0]; exact hs')
  dsimp only at he he0
  rw [Function.update_self, Function.update_of_ne (by simp), hp] at he
  rw [Function.update_self, Function.update_of_ne (by simp)] at he0
  rw [he, he0]

/-- Well-formed proofs for one statement are not accepted for another one. -/
theorem changed_input_probability (hof : ∀ d, randomnessToField 252 d = .ok (env.ofDigest d))
    {pi pi' : PublicInputs} {k : Nat} (hc : ChangedInput pi k pi') {options : ProofOptions} {a b : Nat}
    (S : Setting (air (2 ^ a) pi options) a b) (rest : Nat → Commitment) {s r n : Nat}
    (hs : s = 3 + 2 * 8 + 2 * (if pi.memorySegments = [] then 49 else 50)) :
    probability ((Fin s → Commitment) × (Fin r → Commitment) × (Fin n → Commitment)) (fun ω =>
      ∃ proof : StarkProof FE, proof.traceLength = 2 ^ a ∧ WellFormed (air (2 ^ a) pi options) proof (a + b) ∧
        verifyCairoProof (answering env rest ω.1 ω.2.1 ω.2.2) proof pi options = .ok true ∧
        verifyCairoProof (answering env rest ω.1 ω.2.1 ω.2.2) proof pi' options ≠ .ok false) ≤ 1 / 2 ^ 251 := by
  refine equation_probability hof (changedInput_lt hc) (options := options) (a := a) (b := b) rest hs ?_
  rintro ω ⟨proof, hl, W, h1, h2⟩
  obtain ⟨v, g, w, hv, hg, hw, ⟨boundary, x, R⟩, hall⟩ := C77_cairo_changed_input_partial hc S hl W h1
  obtain ⟨α, β, hα, hβ, hiff⟩ := hall boundary x R
  obtain rfl : v = true := by
    cases v
    · exact absurd hv h2
    · rfl
  exact ⟨g, w, proof, boundary, x, α, β, hg, hw, R, hα, hβ, hiff.1 rfl⟩

/-- The same for another public memory: the challenge `α` does not distinguish the memories, or the challenge `z` is one
of the few for which their products agree or the second product is zero, or the equation holds. -/
theorem changed_memory_probability (hof : ∀ d, randomnessToField 252 d = .ok (env.ofDigest d))
    {pi : PublicInputs} {memory : HMap FE FE}
    (hne : ¬ (pi.publicMemory.filter (· ≠ (0, 0))).Perm (memory.filter (· ≠ (0, 0)))) {options : ProofOptions}
    {a b : Nat} (S : Setting (air (2 ^ a) pi options) a b) (rest : Nat → Commitment) {s r n : Nat}
    (hs : s = 3 + 2 * 8 + 2 * (if pi.memorySegments = [] then 49 else 50)) {N : Nat}
    (hN : N = pi.publicMemory.length + memory.length) :
    probability ((Fin s → Commitment) × (Fin r → Commitment) × (Fin n → Commitment)) (fun ω =>
      ∃ proof : StarkProof FE, proof.traceLength = 2 ^ a ∧ WellFormed (air (2 ^ a) pi options) proof (a + b) ∧
        verifyCairoProof (answering env rest ω.1 ω.2.1 ω.2.2) proof pi options = .ok true ∧
        verifyCairoProof (answering env rest ω.1 ω.2.1 ω.2.2) proof { pi with publicMemory := memory } options
          ≠ .ok false) ≤ ((2 * N) ^ 2 + 2 * N + 1) / 2 ^ 251 := by
  classical
  obtain ⟨A, hA, hdist⟩ := C77_memories_distinguished_partial hne
  rw [← hN] at hA hdist
  have hZ : ∀ α, ∃ Z : Finset FE, Z.card ≤ N ∧ (α ∉ A → ∀ z ∉ Z,
      z ^ memory.length * memoryProduct z α pi.publicMemory ≠ z ^ pi.publicMemory.length * memoryProduct z α memory) := by
    intro α
    by_cases hα : α ∈ A
    · exact ⟨∅, by simp, fun h => absurd hα h⟩
    · obtain ⟨Z, h1, h2⟩ := hdist α hα
      exact ⟨Z, h1, fun _ => h2⟩
  choose Z hZc hZd using hZ
  have h0 : 0 < s := by omega
  have h1 : 1 < s := by omega
  let bad1 : (Fin s → Commitment) → Prop := fun ρ => env.ofDigest (ρ ⟨1, h1⟩) ∈
    (Z (env.ofDigest (ρ ⟨0, h0⟩))).toList ++ memory.map fun e => e.1 + env.ofDigest (ρ ⟨0, h0⟩) * e.2
  let E : (Fin s → Commitment) × (Fin r → Commitment) × (Fin n → Commitment) → Prop := fun ω =>
    ∃ proof : StarkProof FE, proof.traceLength = 2 ^ a ∧ WellFormed (air (2 ^ a) pi options) proof (a + b) ∧
      verifyCairoProof (answering env rest ω.1 ω.2.1 ω.2.2) proof pi options = .ok true ∧
      verifyCairoProof (answering env rest ω.1 ω.2.1 ω.2.2) proof { pi with publicMemory := memory } options ≠ .ok false
  have p0 : probability (Fin s → Commitment) (fun ρ => env.ofDigest (ρ ⟨0, h0⟩) ∈ A.toList)
      ≤ (2 * N) ^ 2 / 2 ^ 251 := by
    refine probability_coordinate ⟨0, h0⟩ (by positivity) fun l => ?_
    simp only [Function.update_self]
    refine (probability_challenge hof _).trans (div_le_div_of_nonneg_right ?_ (by positivity))
    rw [Finset.length_toList]
    exact_mod_cast hA
  have p1 : probability (Fin s → Commitment) bad1 ≤ (2 * N) / 2 ^ 251 := by
    refine probability_coordinate ⟨1, h1⟩ (by positivity) fun l => ?_
    have hu : ∀ x : Commitment, Function.update l (⟨1, h1⟩ : Fin s) x ⟨0, h0⟩ = l ⟨0, h0⟩ := fun x =>
      Function.update_of_ne (by simp) _ _
    simp only [bad1, Function.update_self, hu]
    refine (probability_challenge hof _).trans (div_le_div_of_nonneg_right ?_ (by positivity))
    have h2 := hZc (env.ofDigest (l ⟨0, h0⟩))
    rw [List.length_append, Finset.length_toList, List.length_map]
    have h3 : (Z (env.ofDigest (l ⟨0, h0⟩))).card + memory.length ≤ 2 * N := by omega
    exact_mod_cast h3
  have p2 : probability ((Fin s → Commitment) × (Fin r → Commitment) × (Fin n → Commitment))
      (fun ω => E ω ∧ env.ofDigest (ω.1 ⟨0, h0⟩) ∉ A.toList ∧ ¬ bad1 ω.1) ≤ 1 / 2 ^ 251 := by
    refine equation_probability hof (k := 4) (by norm_num) (options := options) (a := a) (b := b) rest hs ?_
    rintro ⟨ρ, ζ, κ⟩ ⟨⟨proof, hl, W, hv1, hv2⟩, hα, hz⟩
    simp only [bad1, List.mem_append, not_or, Finset.mem_toList] at hα hz
    obtain ⟨hz1, hz2⟩ := hz
    have hprod : memoryProduct (env.ofDigest (ρ ⟨1, h1⟩)) (env.ofDigest (ρ ⟨0, h0⟩)) memory ≠ 0 := by
      unfold memoryProduct
      rw [Ne, List.prod_eq_zero_iff, List.mem_map]
      rintro ⟨e, he, h⟩
      exact hz2 (List.mem_map.2 ⟨e, he, (sub_eq_zero.1 h).symm⟩)
    obtain ⟨v, hv⟩ := C77_cairo_memory_answers memory hv1 fun root hroot => by
      have hch : (buildRapChallenges (answering env rest ρ ζ κ) (air proof.traceLength pi options)
          ((answering env rest ρ ζ κ).tr.append (answering env rest ρ ζ κ).tr.init root.val)).1
          = ⟨env.ofDigest (ρ ⟨0, h0⟩), env.ofDigest (ρ ⟨1, h1⟩), env.ofDigest (ρ ⟨2, by omega⟩)⟩ := by
        unfold buildRapChallenges
        rw [answering_samples]
        show (⟨env.ofDigest ((answering env rest ρ ζ κ).tr.challenge (0 + 0)).1,
          env.ofDigest ((answering env rest ρ ζ κ).tr.challenge (0 + 1)).1,
          env.ofDigest ((answering env rest ρ ζ κ).tr.challenge (0 + 2)).1⟩ : RAPChallenges FE) = _
        rw [answering_before env rest ρ ζ κ (by omega), answering_before env rest ρ ζ κ (by omega),
          answering_before env rest ρ ζ κ (by omega)]
      dsimp only
      rw [hch]
      exact hprod
    obtain ⟨g, w, hg, hw, ⟨boundary, x, R⟩, hall⟩ := C77_cairo_changed_memory_partial memory S hl W hv1 hv
    obtain ⟨α, β, am, zm, hα', hβ', ham, hzm, hiff⟩ := hall boundary x R
    obtain ⟨d0, -⟩ := answering_replays env rest ρ ζ κ R
    rw [d0] at ham hzm
    dsimp only at ham hzm
    rw [show (air (2 ^ a) pi options).numRapChallenges = 3 from rfl, List.getElem?_map,
      List.getElem?_range (by norm_num), Option.map_some, Option.some.injEq,
      answering_before env rest ρ ζ κ (by omega)] at ham hzm
    obtain rfl : v = true := by
      cases v
      · exact absurd hv hv2
      · rfl
    refine ⟨g, w, proof, boundary, x, α, β, hg, hw, R, hα', hβ', (hiff.1 rfl).resolve_left ?_⟩
    show ¬ env.ofDigest zm ^ _ * memoryProduct (env.ofDigest zm) (env.ofDigest am) _ = _
    rw [← ham, ← hzm]
    exact hZd _ hα _ hz1
  have hcover : ∀ ω, E ω → (env.ofDigest (ω.1 ⟨0, h0⟩) ∈ A.toList ∨ bad1 ω.1) ∨
      (E ω ∧ env.ofDigest (ω.1 ⟨0, h0⟩) ∉ A.toList ∧ ¬ bad1 ω.1) := by
    intro ω h
    by_cases hα : env.ofDigest (ω.1 ⟨0, h0⟩) ∈ A.toList
    · exact .inl (.inl hα)
    · by_cases hz : bad1 ω.1
      · exact .inl (.inr hz)
      · exact .inr ⟨h, hα, hz⟩
  refine (probability_mono hcover).trans ((probability_or _ _).trans ?_)
  have p01 := (probability_fst (Y := (Fin r → Commitment) × (Fin n → Commitment)) fun ρ : Fin s → Commitment =>
    env.ofDigest (ρ ⟨0, h0⟩) ∈ A.toList ∨ bad1 ρ).trans ((probability_or _ _).trans (add_le_add p0 p1))
  refine (add_le_add p01 p2).trans (le_of_eq ?_)
  rw [← add_div, ← add_div]

/-- The proofs that the prover makes for Cairo are well formed. -/
theorem cairo_wellFormed {T : Type} {env : Env FE T} {pi : PublicInputs} {options : ProofOptions} {a b : Nat}
    (S : Setting (air (2 ^ a) pi options) a b) {main : List (List FE)} (hlen : main.length = 2 ^ a)
    (hw : ∀ r ∈ main, r.length = 43 - builtinOffset (hasRcBuiltin pi)) {proof : StarkProof FE}
    (h : generateCairoProof env ⟨main.flatten, 43 - builtinOffset (hasRcBuiltin pi)⟩ pi options = .ok proof) :
    proof.traceLength = 2 ^ a ∧ WellFormed (air (2 ^ a) pi options) proof (a + b) := by
  have hk : 0 < 43 - builtinOffset (hasRcBuiltin pi) := by cases hasRcBuiltin pi <;> decide
  refine C79_wellFormed S (new := CairoAir.new) rfl hk hlen hw (fun ch aux haux => ?_) h
  obtain ⟨aux', h, -⟩ := Outcome.bind_eq_ok.1 haux
  rw [tableRows_ofRows hk hw] at h
  obtain ⟨h4, h5⟩ := cairo_joined (n := 2 ^ a) (options := options) hw h
  rw [Outcome.ok.inj (haux.symm.trans h4)]
  exact ⟨_, h5⟩

/-- **C77** with drawn digests: the proof that the prover makes of a main trace, if it is accepted for `pi`, is rejected
with another value of one of the registers or bounds, except with probability at most `1 / 2^251`. -/
theorem C77_changed_input_probability (hof : ∀ d, randomnessToField 252 d = .ok (env.ofDigest d))
    {pi pi' : PublicInputs} {k : Nat} (hc : ChangedInput pi k pi') {options : ProofOptions} {a b : Nat}
    (ha : 1 ≤ a) (hb1 : 1 ≤ b) (hbl : options.blowupFactor.toNat = 2 ^ b) (hsq : ¬ IsSquare (options.cosetOffset : FE))
    {main : List (List FE)} (hlen : main.length = 2 ^ a)
    (hw : ∀ r ∈ main, r.length = 43 - builtinOffset (hasRcBuiltin pi)) (rest : Nat → Commitment) {s r n : Nat}
    (hs : s = 3 + 2 * 8 + 2 * (if pi.memorySegments = [] then 49 else 50)) :
    probability ((Fin s → Commitment) × (Fin r → Commitment) × (Fin n → Commitment)) (fun ω =>
      ∃ proof, generateCairoProof (answering env rest ω.1 ω.2.1 ω.2.2)
          ⟨main.flatten, 43 - builtinOffset (hasRcBuiltin pi)⟩ pi options = .ok proof ∧
        verifyCairoProof (answering env rest ω.1 ω.2.1 ω.2.2) proof pi options = .ok true ∧
        verifyCairoProof (answering env rest ω.1 ω.2.1 ω.2.2) proof pi' options ≠ .ok false) ≤ 1 / 2 ^ 251 := by
  have S := cairo_setting_of ha hb1 pi hbl hsq
  refine (probability_mono ?_).trans (changed_input_probability hof hc S rest hs)
  rintro ω ⟨proof, h1, h2, h3⟩
  obtain ⟨hl, W⟩ := cairo_wellFormed S hlen hw h1
  exact ⟨proof, hl, W, h2, h3⟩

/-- **C77** with drawn digests, for another public memory: the proof that the prover makes of a main trace, if it is
accepted for `pi`, is rejected with a public memory that differs in more than cells with address and value zero, except
with probability at most `(4 N^2 + 2 N + 1) / 2^251`, where `N` is the number of cells of the two memories. -/
theorem C77_changed_memory_probability (hof : ∀ d, randomnessToField 252 d = .ok (env.ofDigest d))
    {pi : PublicInputs} {memory : HMap FE FE}
    (hne : ¬ (pi.publicMemory.filter (· ≠ (0, 0))).Perm (memory.filter (· ≠ (0, 0))))
    {options : ProofOptions} {a b : Nat}
    (ha : 1 ≤ a) (hb1 : 1 ≤ b) (hbl : options.blowupFactor.toNat = 2 ^ b) (hsq : ¬ IsSquare (options.cosetOffset : FE))
    {main : List (List FE)} (hlen : main.length = 2 ^ a)
    (hw : ∀ r ∈ main, r.length = 43 - builtinOffset (hasRcBuiltin pi)) (rest : Nat → Commitment) {s r n : Nat}
    (hs : s = 3 + 2 * 8 + 2 * (if pi.memorySegments = [] then 49 else 50)) {N : Nat}
    (hN : N = pi.publicMemory.length + memory.length) :
    probability ((Fin s → Commitment) × (Fin r → Commitment) × (Fin n → Commitment)) (fun ω =>
      ∃ proof, generateCairoProof (answering env rest ω.1 ω.2.1 ω.2.2)
          ⟨main.flatten, 43 - builtinOffset (hasRcBuiltin pi)⟩ pi options = .ok proof ∧
        verifyCairoProof (answering env rest ω.1 ω.2.1 ω.2.2) proof pi options = .ok true ∧
        verifyCairoProof (answering env rest ω.1 ω.2.1 ω.2.2) proof { pi with publicMemory := memory } options
          ≠ .ok false) ≤ (4 * N ^ 2 + 2 * N + 1) / 2 ^ 251 := by
  have S := cairo_setting_of ha hb1 pi hbl hsq
  refine ((probability_mono ?_).trans (changed_memory_probability hof hne S rest hs hN)).trans (le_of_eq (by ring))
  rintro ω ⟨proof, h1, h2, h3⟩
  obtain ⟨hl, W⟩ := cairo_wellFormed S hlen hw h1
  exact ⟨proof, hl, W, h2, h3⟩

/-- The table made from a run has the width that the AIR expects. -/
theorem honest_shape {mem : CairoMemory} {states : List RegistersState} {size : Nat} {segs : MemorySegmentMap}
    {pi pi' : PublicInputs} (hpi : fromRegsAndMem states mem size segs = .ok pi)
    (hsegs : segs = [] ∨ ∃ r, segs.get? .rangeCheck = some r)
    {main : List (List FE)} (hmain : buildMainTrace states mem pi = .ok (main, pi')) {a : Nat}
    (hlen : main.length = 2 ^ a) :
    1 ≤ a ∧ (∀ r ∈ main, r.length = 43 - builtinOffset (hasRcBuiltin pi')) ∧
      (main.headD []).length = 43 - builtinOffset (hasRcBuiltin pi') ∧ pi'.memorySegments = segs := by
  obtain ⟨⟨a', ha, hlen'⟩, hw, hhd, -, hne, lo, hi, hpi'⟩ := main_shape hmain
  obtain rfl : a' = a := Nat.pow_right_injective le_rfl (hlen'.symm.trans hlen)
  have hseg : pi'.memorySegments = segs := by
    rw [hpi']
    exact (fromRegsAndMem_regs hpi).choose_spec.choose_spec.2.2.2.2.2.2.2
  have hrc : hasRcBuiltin pi = hasRcBuiltin pi' := by
    unfold hasRcBuiltin
    rw [hpi']
  have hmw : mainWidth pi = 43 - builtinOffset (hasRcBuiltin pi') := by
    rw [← hrc]
    unfold mainWidth hasRcBuiltin
    rw [hpi'] at hseg
    rcases hsegs with h | ⟨v, h⟩
    · rw [show pi.memorySegments = [] from hseg.trans h]
      rfl
    · rw [show pi.memorySegments = segs from hseg, h]
      cases segs with
      | nil => cases h
      | cons _ _ => rfl
  exact ⟨ha, by rw [← hmw]; exact hw, by rw [← hmw, ← hhd], hseg⟩

/-- **C77** and C81 together: for an honest run, the prover makes a proof, the verifier accepts it, and it rejects it
with another value of one of the registers or bounds, with the probability of C81 less at most `1 / 2^251`. -/
theorem C77_honest_run_bound (hta : env.ta = starkRoots) (hof : ∀ d, randomnessToField 252 d = .ok (env.ofDigest d))
    {mem : CairoMemory} {m : FE → FE}
    {states : List RegistersState} (run : HonestRun mem m states) {size : Nat} {segs : MemorySegmentMap}
    {pi pi' : PublicInputs} (hpi : fromRegsAndMem states mem size segs = .ok pi) (hsize : size < 2 ^ 64)
    (hzero : mem.get? 0 = none) (hpc : ∃ t ∈ states, t.pc ≤ size)
    (hsegs : segs = [] ∨ ∃ r, segs.get? .rangeCheck = some r) (hb : BuiltinValues mem segs)
    (hout : OutputAfterProgram size segs) (hcov : OutputCovered m states size segs)
    {main : List (List FE)} (hmain : buildMainTrace states mem pi = .ok (main, pi'))
    {other : PublicInputs} {k : Nat} (hc : ChangedInput pi' k other)
    {options : ProofOptions} {a b : Nat} (hlen : main.length = 2 ^ a) (hab : a + b < 64) (hb1 : 1 ≤ b)
    (hbl : options.blowupFactor.toNat = 2 ^ b) (hsq : ¬ IsSquare (options.cosetOffset : FE))
    (hg : options.grindingFactor.toNat ≤ 64) (rest : Nat → Commitment) {s : Nat} (r : Nat) {n : Nat}
    (hs : s = 3 + 2 * 8 + 2 * (if segs = [] then 49 else 50)) (hn : n < 2 ^ 64) :
    1 - (11 * 2 ^ a / 2 ^ 251 + ((2 ^ (a + b) + 2 ^ a) / 2 ^ 251) ^ r
        + (1 - 1 / 2 ^ options.grindingFactor.toNat) ^ n + 1 / 2 ^ 251)
      ≤ probability ((Fin s → Commitment) × (Fin r → Commitment) × (Fin n → Commitment)) fun ω =>
          ∃ proof,
            generateCairoProof (answering env rest ω.1 ω.2.1 ω.2.2) ⟨main.flatten, (main.headD []).length⟩ pi' options
              = .ok proof ∧
            verifyCairoProof (answering env rest ω.1 ω.2.1 ω.2.2) proof pi' options = .ok true ∧
            verifyCairoProof (answering env rest ω.1 ω.2.1 ω.2.2) proof other options = .ok false := by
  have h1 := C81_honest_run hta hof run hpi hsize hzero hpc hsegs hb hout hcov hmain hlen hab hb1 hbl hsq hg rest r hs hn
  obtain ⟨ha, hw, hhd, hseg⟩ := honest_shape hpi hsegs hmain hlen
  have h2 := C77_changed_input_probability (env := env) hof hc ha hb1 hbl hsq hlen hw rest (s := s) (r := r)
    (n := n) (by rw [hseg]; exact hs)
  rw [← hhd] at h2
  refine le_trans ?_ (sub_le_sub_right h1 _ |>.trans (sub_le_iff_le_add.2 ((probability_mono ?_).trans
    ((probability_or _ _).trans (add_le_add le_rfl h2)))))
  · linarith
  · rintro ω ⟨proof, h3, h4⟩
    exact (Classical.em (verifyCairoProof (answering env rest ω.1 ω.2.1 ω.2.2) proof other options = .ok false)).imp
      (fun h => ⟨proof, h3, h4, h⟩) fun h => ⟨proof, h3, h4, h⟩

/-- **C77** and C81 together, for another public memory, with the bound of `C77_changed_memory_probability`. -/
theorem C77_honest_memory_bound (hta : env.ta = starkRoots) (hof : ∀ d, randomnessToField 252 d = .ok (env.ofDigest d))
    {mem : CairoMemory} {m : FE → FE}
    {states : List RegistersState} (run : HonestRun mem m states) {size : Nat} {segs : MemorySegmentMap}
    {pi pi' : PublicInputs} (hpi : fromRegsAndMem states mem size segs = .ok pi) (hsize : size < 2 ^ 64)
    (hzero : mem.get? 0 = none) (hpc : ∃ t ∈ states, t.pc ≤ size)
    (hsegs : segs = [] ∨ ∃ r, segs.get? .rangeCheck = some r) (hb : BuiltinValues mem segs)
    (hout : OutputAfterProgram size segs) (hcov : OutputCovered m states size segs)
    {main : List (List FE)} (hmain : buildMainTrace states mem pi = .ok (main, pi'))
    {memory : HMap FE FE} (hne : ¬ (pi'.publicMemory.filter (· ≠ (0, 0))).Perm (memory.filter (· ≠ (0, 0))))
    {N : Nat} (hN : N = pi'.publicMemory.length + memory.length)
    {options : ProofOptions} {a b : Nat} (hlen : main.length = 2 ^ a) (hab : a + b < 64) (hb1 : 1 ≤ b)
    (hbl : options.blowupFactor.toNat = 2 ^ b) (hsq : ¬ IsSquare (options.cosetOffset : FE))
    (hg : options.grindingFactor.toNat ≤ 64) (rest : Nat → Commitment) {s : Nat} (r : Nat) {n : Nat}
    (hs : s = 3 + 2 * 8 + 2 * (if segs = [] then 49 else 50)) (hn : n < 2 ^ 64) :
    1 - (11 * 2 ^ a / 2 ^ 251 + ((2 ^ (a + b) + 2 ^ a) / 2 ^ 251) ^ r
        + (1 - 1 / 2 ^ options.grindingFactor.toNat) ^ n
        + (4 * N ^ 2 + 2 * N + 1) / 2 ^ 251)
      ≤ probability ((Fin s → Commitment) × (Fin r → Commitment) × (Fin n → Commitment)) fun ω =>
          ∃ proof,
            generateCairoProof (answering env rest ω.1 ω.2.1 ω.2.2) ⟨main.flatten, (main.headD []).length⟩ pi' options
              = .ok proof ∧
            verifyCairoProof (answering env rest ω.1 ω.2.1 ω.2.2) proof pi' options = .ok true ∧
            verifyCairoProof (answering env rest ω.1 ω.2.1 ω.2.2) proof { pi' with publicMemory := memory }
              options = .ok false := by
  have h1 := C81_honest_run hta hof run hpi hsize hzero hpc hsegs hb hout hcov hmain hlen hab hb1 hbl hsq hg rest r hs hn
  obtain ⟨ha, hw, hhd, hseg⟩ := honest_shape hpi hsegs hmain hlen
  have h2 := C77_changed_memory_probability (env := env) hof hne ha hb1 hbl hsq hlen hw rest (s := s) (r := r)
    (n := n) (by rw [hseg]; exact hs) hN
  rw [← hhd] at h2
  refine le_trans ?_ (sub_le_sub_right h1 _ |>.trans (sub_le_iff_le_add.2 ((probability_mono ?_).trans
    ((probability_or _ _).trans (add_le_add le_rfl h2)))))
  · linarith
  · rintro ω ⟨proof, h3, h4⟩
    exact (Classical.em (verifyCairoProof (answering env rest ω.1 ω.2.1 ω.2.2) proof
      { pi' with publicMemory := memory } options = .ok false)).imp
      (fun h => ⟨proof, h3, h4, h⟩) fun h => ⟨proof, h3, h4, h⟩

/-- The pairs of values at the positions `i` and `i + k`, for `k` values of `i` from `start` on. -/
def pairsAt (value : Nat → FE) (start k : Nat) : List (FE × FE) :=
  (List.range k).map fun i => (value (start + i), value (start + k + i))

theorem pairsAt_length (value : Nat → FE) (start k : Nat) : (pairsAt value start k).length = k := by simp [pairsAt]

theorem pairsAt_set {value value' : Nat → FE} {start k i : Nat}
    (h : ∀ j, j ≠ start + k + i → value' j = value j) (hi : i < k) :
    pairsAt value' start k = (pairsAt value start k).set i (value (start + i), value' (start + k + i)) := by
  refine List.ext_getElem (by simp [pairsAt]) fun j h1 h2 => ?_
  have hj : j < k := by simpa [pairsAt] using h1
  rw [List.getElem_set]
  split
  next he =>
    subst he
    simp only [pairsAt, List.getElem_map, List.getElem_range]
    rw [h (start + i) (by omega)]
  next hne =>
    simp only [pairsAt, List.getElem_map, List.getElem_range]
    rw [h (start + j) (by omega), h (start + k + j) (by omega)]

theorem pairsAt_same {value value' : Nat → FE} {start k p : Nat} (h : ∀ j, j ≠ p → value' j = value j)
    (hp : p < start ∨ start + 2 * k ≤ p) : pairsAt value' start k = pairsAt value start k := by
  refine List.map_congr_left fun i hi => ?_
  rw [List.mem_range] at hi
  rw [h (start + i) (by omega), h (start + k + i) (by omega)]

theorem pairsAt_zip (value : Nat → FE) (start k : Nat) :
    ((List.range k).map fun i => value (start + i)).zip ((List.range k).map fun i => value (start + k + i))
      = pairsAt value start k := by
  unfold pairsAt
  rw [List.zip_map']

/-- The element of the field that is drawn at the position `j`. -/
def valueAt (ofDigest : Commitment → FE) {s : Nat} (ρ : Fin s → Commitment) (j : Nat) : FE :=
  if h : j < s then ofDigest (ρ ⟨j, h⟩) else 0

/-- Lucky coefficients, when what is lucky may depend on the first three draws. -/
theorem probability_lucky (hof : ∀ d, randomnessToField 252 d = .ok (env.ofDigest d)) {nt s : Nat}
    (hs : s = 3 + 2 * 8 + 2 * nt) (lucky : List FE → List (FE × FE) → List (FE × FE) → Prop)
    (h : ∀ ch, AtMostOne (lucky ch) 8 nt) :
    probability (Fin s → Commitment) (fun ρ =>
      lucky ((List.range 3).map (valueAt env.ofDigest ρ)) (pairsAt (valueAt env.ofDigest ρ) 3 8)
        (pairsAt (valueAt env.ofDigest ρ) 19 nt)) ≤ 1 / 2 ^ 251 := by
  obtain ⟨n, rfl⟩ : ∃ n, s = 3 + n := ⟨s - 3, by omega⟩
  rw [← probability_equiv (Fin.appendEquiv 3 n)]
  refine probability_snd (by positivity) fun u => ?_
  set ch := (List.range 3).map fun j => if h : j < 3 then env.ofDigest (u ⟨j, h⟩) else 0 with hch
  have h3 : ∀ v : Fin n → Commitment, (List.range 3).map (valueAt env.ofDigest (Fin.appendEquiv 3 n (u, v))) = ch := by
    intro v
    refine List.map_congr_left fun j hj => ?_
    rw [List.mem_range] at hj
    unfold valueAt
    rw [dif_pos (by omega), dif_pos hj]
    exact congrArg env.ofDigest (Fin.append_left u v ⟨j, hj⟩)
  have hv : ∀ (v : Fin n → Commitment) (i : Nat) (hi : i < n) (y : Commitment),
      (∀ j, j ≠ 3 + i → valueAt env.ofDigest (Fin.appendEquiv 3 n (u, Function.update v ⟨i, hi⟩ y)) j
        = valueAt env.ofDigest (Fin.appendEquiv 3 n (u, v)) j) ∧
      valueAt env.ofDigest (Fin.appendEquiv 3 n (u, Function.update v ⟨i, hi⟩ y)) (3 + i) = env.ofDigest y := by
    intro v i hi y
    refine ⟨fun j hj => ?_, ?_⟩
    · unfold valueAt
      split
      next hlt =>
        congr 1
        by_cases hj3 : j < 3
        · exact (Fin.append_left u _ ⟨j, hj3⟩).trans (Fin.append_left u v ⟨j, hj3⟩).symm
        · obtain ⟨j', rfl⟩ : ∃ j', j = 3 + j' := ⟨j - 3, by omega⟩
          have hj' : j' < n := by omega
          refine (Fin.append_right u _ ⟨j', hj'⟩).trans (Eq.trans ?_ (Fin.append_right u v ⟨j', hj'⟩).symm)
          exact Function.update_of_ne (fun he => hj (by rw [Fin.mk.inj he])) _ _
      next => rfl
    · unfold valueAt
      rw [dif_pos (by omega)]
      refine congrArg env.ofDigest ((Fin.append_right u _ ⟨i, hi⟩).trans ?_)
      exact Function.update_self _ _ _
  simp only [h3]
  rcases h ch with ⟨k, hk, h1⟩ | ⟨k, hk, h1⟩
  · refine probability_coordinate ⟨8 + k, by omega⟩ (by positivity) fun v => ?_
    refine probability_unique hof fun x y hx hy => ?_
    obtain ⟨ex, fx⟩ := hv v (8 + k) (by omega) x
    obtain ⟨ey, fy⟩ := hv v (8 + k) (by omega) y
    rw [show 3 + (8 + k) = 3 + 8 + k by omega] at ex fx ey fy
    rw [pairsAt_set ex hk, pairsAt_same ex (.inl (by omega)), fx] at hx
    rw [pairsAt_set ey hk, pairsAt_same ey (.inl (by omega)), fy] at hy
    exact h1 _ _ (pairsAt_length _ _ _) _ _ _ hx hy
  · refine probability_coordinate ⟨16 + nt + k, by omega⟩ (by positivity) fun v => ?_
    refine probability_unique hof fun x y hx hy => ?_
    obtain ⟨ex, fx⟩ := hv v (16 + nt + k) (by omega) x
    obtain ⟨ey, fy⟩ := hv v (16 + nt + k) (by omega) y
    rw [show 3 + (16 + nt + k) = 19 + nt + k by omega] at ex fx ey fy
    rw [pairsAt_set ex hk, pairsAt_same ex (.inr (by omega)), fx] at hx
    rw [pairsAt_set ey hk, pairsAt_same ey (.inr (by omega)), fy] at hy
    exact h1 _ _ (pairsAt_length _ _ _) _ _ _ hx hy

theorem valueAt_eq (rest : Nat → Commitment) {s r n : Nat} (ρ : Fin s → Commitment) (ζ : Fin r → Commitment)
    (κ : Fin n → Commitment) {start k : Nat} (h : start + k ≤ s) :
    ((List.range k).map fun i => ((answering env rest ρ ζ κ).tr.challenge (start + i)).1).map env.ofDigest
      = (List.range k).map fun i => valueAt env.ofDigest ρ (start + i) := by
  rw [List.map_map]
  refine List.map_congr_left fun i hi => ?_
  rw [List.mem_range] at hi
  rw [Function.comp_apply, answering_before env rest ρ ζ κ (by omega), valueAt, dif_pos (by omega)]

/-- **C79** with drawn digests: if the AIR accepts a main trace with no challenges, the proof that the prover makes of it
is accepted with probability at most `(1 + 2^(a+b) + 2^(a+1)) / 2^251`, for `2^a` rows and the blowup factor `2^b`. -/
theorem C79_rejected_probability (hta : env.ta = starkRoots)
    (hof : ∀ d, randomnessToField 252 d = .ok (env.ofDigest d))
    {pi : PublicInputs} {options : ProofOptions} {a b : Nat} (ha : 1 ≤ a) (hb1 : 1 ≤ b)
    (hab : a + b < 64) (hbl : options.blowupFactor.toNat = 2 ^ b) (hsq : ¬ IsSquare (options.cosetOffset : FE))
    {main : List (List FE)} (hlen : main.length = 2 ^ a)
    (hw : ∀ r ∈ main, r.length = 43 - builtinOffset (hasRcBuiltin pi)) (hsteps : pi.numSteps ≤ 2 ^ a)
    (hbad : ∀ ch aux, ExecTrace.buildAuxiliaryTrace pi main ch = .ok aux →
      ¬ Accepted pi options (List.zipWith (· ++ ·) main aux) ch)
    (rest : Nat → Commitment) {s n : Nat}
    (hs : s = 3 + 2 * 8 + 2 * (if pi.memorySegments = [] then 49 else 50)) :
    probability ((Fin s → Commitment) × (Fin 1 → Commitment) × (Fin n → Commitment)) (fun ω =>
      ∃ proof, generateCairoProof (answering env rest ω.1 ω.2.1 ω.2.2)
          ⟨main.flatten, 43 - builtinOffset (hasRcBuiltin pi)⟩ pi options = .ok proof ∧
        verifyCairoProof (answering env rest ω.1 ω.2.1 ω.2.2) proof pi options = .ok true)
      ≤ (1 + 2 ^ (a + b) + 2 ^ (a + 1)) / 2 ^ 251 := by
  classical
  have S := cairo_setting_of ha hb1 pi hbl hsq
  have hk : 0 < 43 - builtinOffset (hasRcBuiltin pi) := by cases hasRcBuiltin pi <;> decide
  have hs' := draws_eq (n := 2 ^ a) (options := options) hs
  obtain ⟨nt, hnt⟩ : ∃ nt, nt = (air (2 ^ a) pi options).context.numTransitionConstraints := ⟨_, rfl⟩
  rw [← hnt] at hs'
  have hs19 : s = 3 + 2 * 8 + 2 * nt := hs'
  obtain ⟨d, hd⟩ := domain_exists (ta := env.ta) S.rows S.length S.blowup hab (by rw [hta]; show _ ≤ 192; omega)
  obtain ⟨g, w, D⟩ := domain_new S.rows S.length S.blowup hd
  -- what is lucky and which points are bad, for the first challenges
  have hmostly : ∀ l : List FE, ∃ (lucky : List (FE × FE) → List (FE × FE) → Prop)
      (bad : List (FE × FE) → List (FE × FE) → Finset FE), AtMostOne lucky 8 nt ∧
      (∀ bC tC, (bad bC tC).card < 2 ^ a) ∧
      ∀ (ρ : Fin s → Commitment) (ζ : Fin 1 → Commitment) (κ : Fin n → Commitment) (proof : StarkProof FE) boundary x,
        generateCairoProof (answering env rest ρ ζ κ) ⟨main.flatten, 43 - builtinOffset (hasRcBuiltin pi)⟩ pi options
          = .ok proof →
        Replays (answering env rest ρ ζ κ) (air (2 ^ a) pi options) proof boundary a b g w x →
        x.rap.map env.ofDigest = l →
        verifyCairoProof (answering env rest ρ ζ κ) proof pi options = .ok true →
        lucky ((x.alphaB.map env.ofDigest).zip (x.betaB.map env.ofDigest))
            ((x.alphaT.map env.ofDigest).zip (x.betaT.map env.ofDigest)) ∨
          env.ofDigest x.point ∈ bad ((x.alphaB.map env.ofDigest).zip (x.betaB.map env.ofDigest))
            ((x.alphaT.map env.ofDigest).zip (x.betaT.map env.ofDigest)) := by
    intro l
    by_cases hex : (∃ aux, ExecTrace.buildAuxiliaryTrace pi main ((air (2 ^ a) pi options).rapChallenges l) = .ok aux) ∧
        ∃ boundary, boundaryConstraints pi (2 ^ a) ((air (2 ^ a) pi options).rapChallenges l) = .ok boundary
    · obtain ⟨⟨aux, haux⟩, boundary, hb⟩ := hex
      obtain ⟨lucky, bad, h1, h2, h3⟩ := C79_cairo_unsatisfying ha hb1 hab hbl hsq hlen hw hsteps haux hb (hbad _ _ haux)
      refine ⟨lucky, bad, hnt ▸ h1, h2, fun ρ ζ κ proof boundary' x hp R hl hv => ?_⟩
      by_contra hn
      rw [not_or] at hn
      exact h3 (answering env rest ρ ζ κ) proof hta hp g w boundary' x (hta ▸ D.hg) (hta ▸ D.hw) R
        (congrArg (air (2 ^ a) pi options).rapChallenges hl) hn.1 hn.2 hv
    · refine ⟨fun _ _ => False, fun _ _ => ∅, .inl ⟨0, by norm_num, fun _ _ _ _ _ _ h => h.elim⟩, fun _ _ => by simp,
        fun ρ ζ κ proof boundary' x hp R hl hv => absurd ⟨?_, boundary', ?_⟩ hex⟩
      · have hnr : (ofRows main (43 - builtinOffset (hasRcBuiltin pi))).nRows = 2 ^ a := by
          rw [nRows_ofRows _ _ hk hw, hlen]
        obtain ⟨d', c, t, r1, r2, deep, layers, ps, hd', hs1, U⟩ :=
          C49_same_challenges (env := answering env rest ρ ζ κ) (new := CairoAir.new)
            (trace := ofRows main (43 - builtinOffset (hasRcBuiltin pi))) (by rw [hnr]; rfl) S.rows S.length S.blowup hp
        obtain ⟨g', w', D'⟩ := domain_new S.rows S.length S.blowup hd'
        obtain ⟨t1, hr1⟩ := U.first
        obtain ⟨root0, rest', hroots, hrap, -, aux, haux, -⟩ := round1_ok D' hk hlen hw hr1
        rw [hrap, replays_rap R (by rw [U.traceRoots, hroots])] at haux
        obtain ⟨aux', h, -⟩ := Outcome.bind_eq_ok.1 haux
        rw [tableRows_ofRows hk hw] at h
        refine ⟨aux', ?_⟩
        rw [← hl]
        exact h
      · rw [← hl]
        exact R.constraints
  choose lucky bad hlucky hcard haccepted using hmostly
  let v : (Fin s → Commitment) → Nat → FE := fun ρ => valueAt env.ofDigest ρ
  let ch : (Fin s → Commitment) → List FE := fun ρ => (List.range 3).map (v ρ)
  let dom : List FE := (List.range (2 ^ (a + b))).map (fun i => w ^ i * (options.cosetOffset : FE)) ++
    (List.range (2 ^ a)).map fun i => g ^ i
  have hcover : ∀ ω : (Fin s → Commitment) × (Fin 1 → Commitment) × (Fin n → Commitment),
      (∃ proof, generateCairoProof (answering env rest ω.1 ω.2.1 ω.2.2)
          ⟨main.flatten, 43 - builtinOffset (hasRcBuiltin pi)⟩ pi options = .ok proof ∧
        verifyCairoProof (answering env rest ω.1 ω.2.1 ω.2.2) proof pi options = .ok true) →
      lucky (ch ω.1) (pairsAt (v ω.1) 3 8) (pairsAt (v ω.1) 19 nt) ∨
      env.ofDigest (ω.2.1 0) ∈ (bad (ch ω.1) (pairsAt (v ω.1) 3 8) (pairsAt (v ω.1) 19 nt)).toList ++ dom := by
    rintro ⟨ρ, ζ, κ⟩ ⟨proof, hp, hv⟩
    obtain ⟨hl, W⟩ := cairo_wellFormed S hlen hw hp
    obtain ⟨-, air0, d0, c, t, h1, h2, h3, -⟩ := verify_true hv
    rw [hl] at h1
    obtain rfl := Outcome.ok.inj h1
    obtain rfl := Outcome.ok.inj (hd.symm.trans h2)
    obtain ⟨boundary, x, R, -⟩ := replays_of_step1 (env := answering env rest ρ ζ κ) D S.fits.columns_pos W h3
    have hb : boundary.length = 8 := boundary_eight R.constraints
    obtain ⟨e1, e2, e3, e4, e5, e6, e7⟩ := answering_replays env rest ρ ζ κ R
    rw [hb, ← hnt] at *
    dsimp only at e6
    rw [← hs'] at e6 e7
    have f1 : x.rap.map env.ofDigest = ch ρ := by
      rw [e1]
      exact (valueAt_eq rest ρ ζ κ (start := 0) (k := 3) (by omega)).trans (by simp [ch, v])
    have f2 : (x.alphaB.map env.ofDigest).zip (x.betaB.map env.ofDigest) = pairsAt (v ρ) 3 8 := by
      rw [e2, e3, ← pairsAt_zip]
      exact congrArg₂ List.zip (valueAt_eq rest ρ ζ κ (start := 3) (k := 8) (by omega))
        (valueAt_eq rest ρ ζ κ (start := 11) (k := 8) (by omega))
    have f3 : (x.alphaT.map env.ofDigest).zip (x.betaT.map env.ofDigest) = pairsAt (v ρ) 19 nt := by
      rw [e4, e5, ← pairsAt_zip]
      exact congrArg₂ List.zip (valueAt_eq rest ρ ζ κ (start := 19) (k := nt) (by omega))
        (valueAt_eq rest ρ ζ κ (start := 19 + nt) (k := nt) (by omega))
    have h0 : ((answering env rest ρ ζ κ).tr.challenge s).1 = ζ 0 := by
      show (if h : s < s then ρ ⟨s, h⟩ else if h : s - s < 1 then ζ ⟨s - s, h⟩ else _) = _
      rw [dif_neg (by omega), dif_pos (by omega)]
      exact congrArg ζ (Fin.ext (by simp))
    by_cases hdom : env.ofDigest (ζ 0) ∈ dom
    · exact .inr (List.mem_append_right _ hdom)
    have hrej : x.rejected.length = 0 := by
      by_contra hne
      refine hdom ?_
      have hmem : ζ 0 ∈ x.rejected := by
        rw [e6, ← h0]
        exact List.mem_map.2 ⟨0, List.mem_range.2 (by omega), rfl⟩
      rcases R.rejected _ hmem with ⟨i, hi, he⟩ | ⟨i, hi, he⟩
      · exact List.mem_append_left _ (List.mem_map.2 ⟨i, List.mem_range.2 hi, he.symm⟩)
      · exact List.mem_append_right _ (List.mem_map.2 ⟨i, List.mem_range.2 hi, he.symm⟩)
    have hpt : x.point = ζ 0 := by
      rw [e7, hrej, ← h0]
      rfl
    have := haccepted (ch ρ) ρ ζ κ proof boundary x hp R f1 hv
    rw [f2, f3, hpt] at this
    exact this.imp_right fun h => List.mem_append_left _ (Finset.mem_toList.2 h)
  refine (probability_mono hcover).trans ((probability_or _ _).trans ?_)
  have p1 := (probability_fst (Y := (Fin 1 → Commitment) × (Fin n → Commitment)) fun ρ : Fin s → Commitment =>
    lucky (ch ρ) (pairsAt (v ρ) 3 8) (pairsAt (v ρ) 19 nt)).trans (probability_lucky hof hs19 lucky hlucky)
  have p2 : probability ((Fin s → Commitment) × (Fin 1 → Commitment) × (Fin n → Commitment)) (fun ω =>
      env.ofDigest (ω.2.1 0) ∈ (bad (ch ω.1) (pairsAt (v ω.1) 3 8) (pairsAt (v ω.1) 19 nt)).toList ++ dom)
      ≤ (2 ^ (a + b) + 2 ^ (a + 1)) / 2 ^ 251 := by
    refine probability_snd (by positivity) fun ρ => ?_
    refine (probability_fst (Y := Fin n → Commitment) fun ζ : Fin 1 → Commitment => env.ofDigest (ζ 0) ∈
      (bad (ch ρ) (pairsAt (v ρ) 3 8) (pairsAt (v ρ) 19 nt)).toList ++ dom).trans ?_
    refine probability_coordinate 0 (by positivity) fun l => ?_
    simp only [Function.update_self]
    refine (probability_challenge hof _).trans ?_
    refine div_le_div_of_nonneg_right ?_ (by positivity)
    have hc := hcard (ch ρ) (pairsAt (v ρ) 3 8) (pairsAt (v ρ) 19 nt)
    have hl : ((bad (ch ρ) (pairsAt (v ρ) 3 8) (pairsAt (v ρ) 19 nt)).toList ++ dom).length
        ≤ 2 ^ (a + b) + 2 ^ (a + 1) := by
      rw [List.length_append, Finset.length_toList]
      simp only [dom, List.length_append, List.length_map, List.length_range]
      rw [pow_succ 2 a]
      omega
    exact_mod_cast hl
  refine (add_le_add p1 p2).trans (le_of_eq ?_)
  rw [← add_div, add_assoc]

/-- The run of `simple_program`: with probability at least `1 - 1/2^98` there is a proof, it is accepted, and it is
rejected when another final `ap` is claimed. -/
example (rest : Nat → Commitment) :
    1 - 1 / 2 ^ 98 ≤ probability ((Fin 117 → Commitment) × (Fin 1 → Commitment) × (Fin 100 → Commitment)) fun ω =>
      ∃ proof,
        generateCairoProof (answering envDrawn rest ω.1 ω.2.1 ω.2.2)
          ⟨Examples.main0.1.flatten, (Examples.main0.1.headD []).length⟩ Examples.main0.2 ProofOptions.defaultTestOptions
          = .ok proof ∧
        verifyCairoProof (answering envDrawn rest ω.1 ω.2.1 ω.2.2) proof Examples.main0.2
          ProofOptions.defaultTestOptions = .ok true ∧
        verifyCairoProof (answering envDrawn rest ω.1 ω.2.1 ω.2.2) proof
          { Examples.main0.2 with apFinal := Examples.main0.2.apFinal + 1 }
          ProofOptions.defaultTestOptions = .ok false := by
  have hpc : ∃ t ∈ Examples.states, t.pc ≤ 5 := ⟨⟨1, 8, 8⟩, by decide, by decide⟩
  have hb : BuiltinValues Examples.mem [] := by intro s e h; cases h
  have ho : OutputAfterProgram 5 [] := by intro s e h; cases h
  have hc : OutputCovered Examples.m Examples.states 5 [] := covered_of_no_output rfl
  have hmain : buildMainTrace Examples.states Examples.mem Examples.pi0
      = .ok (Examples.main0.1, Examples.main0.2) := by
    rw [Examples.main0_eq, Prod.mk.eta]
  have := C77_honest_run_bound (env := envDrawn) (a := 3) (b := 2) (main := Examples.main0.1) (pi' := Examples.main0.2)
    (options := ProofOptions.defaultTestOptions) rfl envDrawn_challenges example_run Examples.pi0_eq (by norm_num)
    (by decide +kernel) hpc (.inl rfl) hb ho hc hmain (.apFinal (Examples.main0.2.apFinal + 1) (by simp))
    Examples.main0_length (by norm_num) (by norm_num) (by decide) three_nonsquare (by decide) rest
    (s := 117) 1 (n := 100) rfl (by norm_num)
  refine le_trans ?_ this
  rw [show ProofOptions.defaultTestOptions.grindingFactor.toNat = 1 from rfl]
  norm_num

/-- The same run, and the public memory without its first cell, or with another value in it. -/
example (rest : Nat → Commitment) (memory : HMap FE FE)
    (hm : memory = Examples.main0.2.publicMemory.tail ∨ memory = (1, 7) :: Examples.main0.2.publicMemory.tail) :
    1 - 1 / 2 ^ 98 ≤ probability ((Fin 117 → Commitment) × (Fin 1 → Commitment) × (Fin 100 → Commitment)) fun ω =>
      ∃ proof,
        generateCairoProof (answering envDrawn rest ω.1 ω.2.1 ω.2.2)
          ⟨Examples.main0.1.flatten, (Examples.main0.1.headD []).length⟩ Examples.main0.2 ProofOptions.defaultTestOptions
          = .ok proof ∧
        verifyCairoProof (answering envDrawn rest ω.1 ω.2.1 ω.2.2) proof Examples.main0.2
          ProofOptions.defaultTestOptions = .ok true ∧
        verifyCairoProof (answering envDrawn rest ω.1 ω.2.1 ω.2.2) proof
          { Examples.main0.2 with publicMemory := memory } ProofOptions.defaultTestOptions = .ok false := by
  have hpc : ∃ t ∈ Examples.states, t.pc ≤ 5 := ⟨⟨1, 8, 8⟩, by decide, by decide⟩
  have hb : BuiltinValues Examples.mem [] := by intro s e h; cases h
  have ho : OutputAfterProgram 5 [] := by intro s e h; cases h
  have hc : OutputCovered Examples.m Examples.states 5 [] := covered_of_no_output rfl
  have hmain : buildMainTrace Examples.states Examples.mem Examples.pi0
      = .ok (Examples.main0.1, Examples.main0.2) := by
    rw [Examples.main0_eq, Prod.mk.eta]
  have hne : ¬ (Examples.main0.2.publicMemory.filter (· ≠ (0, 0))).Perm (memory.filter (· ≠ (0, 0))) := by
    rcases hm with rfl | rfl <;> decide +kernel
  have hN : Examples.main0.2.publicMemory.length + memory.length ≤ 10 := by
    rcases hm with rfl | rfl <;> decide +kernel
  have := C77_honest_memory_bound (env := envDrawn) (a := 3) (b := 2) (main := Examples.main0.1) (pi' := Examples.main0.2)
    (options := ProofOptions.defaultTestOptions) rfl envDrawn_challenges example_run Examples.pi0_eq (by norm_num)
    (by decide +kernel) hpc (.inl rfl) hb ho hc hmain hne rfl
    Examples.main0_length (by norm_num) (by norm_num) (by decide) three_nonsquare (by decide) rest
    (s := 117) 1 (n := 100) rfl (by norm_num)
  refine le_trans ?_ this
  rw [show ProofOptions.defaultTestOptions.grindingFactor.toNat = 1 from rfl]
  have hN' : ((Examples.main0.2.publicMemory.length + memory.length : Nat) : ℚ) ≤ 10 := by exact_mod_cast hN
  have hN0 : (0 : ℚ) ≤ ((Examples.main0.2.publicMemory.length + memory.length : Nat) : ℚ) := by positivity
  generalize ((Examples.main0.2.publicMemory.length + memory.length : Nat) : ℚ) = N at hN' hN0
  have hq : (4 * N ^ 2 + 2 * N + 1) / 2 ^ 251 ≤ (421 : ℚ) / 2 ^ 251 :=
    div_le_div_of_nonneg_right (by nlinarith) (by positivity)
  refine le_trans ?_ (sub_le_sub_left (add_le_add_right hq _) 1)
  norm_num

/-- The trace of `simple_program`, proved with the claim that the run ends with another `ap`: the proof is accepted with
probability at most `49 / 2^251`. -/
example (rest : Nat → Commitment) :
    let pi := { Examples.main0.2 with apFinal := Examples.main0.2.apFinal + 1 }
    probability ((Fin 117 → Commitment) × (Fin 1 → Commitment) × (Fin 100 → Commitment)) (fun ω =>
      ∃ proof, generateCairoProof (answering envDrawn rest ω.1 ω.2.1 ω.2.2) ⟨Examples.main0.1.flatten, 34⟩ pi
          ProofOptions.defaultTestOptions = .ok proof ∧
        verifyCairoProof (answering envDrawn rest ω.1 ω.2.1 ω.2.2) proof pi ProofOptions.defaultTestOptions = .ok true)
      ≤ 49 / 2 ^ 251 := by
  intro pi
  have hrc : hasRcBuiltin pi = false := by decide +kernel
  have := C79_rejected_probability (env := envDrawn) (pi := pi) (options := ProofOptions.defaultTestOptions) (a := 3)
    (b := 2) (main := Examples.main0.1) rfl envDrawn_challenges (by norm_num) (by norm_num) (by norm_num) rfl
    three_nonsquare Examples.main0_length (by rw [hrc]; exact Examples.main0_width) (by decide +kernel)
    (fun ch aux haux h => by
      obtain ⟨_, _, _, _, _, A⟩ := ExecTrace.buildAuxiliaryTrace_ok haux
      have h1 := (C32_boundary_partial h).2.2.2.2
      have hi : pi.numSteps - 1 < Examples.main0.1.length := by decide +kernel
      unfold regsAt at h1
      dsimp only at h1
      rw [ExecTrace.cell_full A.len hi, ExecTrace.fullRow_main Examples.main0_width hi (by decide)] at h1
      exact absurd h1 (by decide +kernel)) rest (s := 117) (n := 100)
    (by rw [if_pos (by decide +kernel)])
  rw [hrc] at this
  refine le_trans this ?_
  norm_num

end Verif.Props
