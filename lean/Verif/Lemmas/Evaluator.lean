import Verif.Lemmas.Stark
import Verif.Props.TraceTable

/-!
# Lemmas about the constraint evaluator
-/

namespace Verif
open Polynomial Spec
variable {F Ch : Type} [Field F] [DecidableEq F]

theorem mapOutcome_eq_map {ε α β : Type} {f : α → Outcome ε β} {g : α → β} (l : List α)
    (h : ∀ a ∈ l, f a = .ok (g a)) : mapOutcome f l = .ok (l.map g) := mapOutcome_ok l h

theorem mapOutcome_comp {ε α β γ : Type} {f : β → Outcome ε γ} {g : α → β} {k : α → γ} (l : List α)
    (h : ∀ a ∈ l, f (g a) = .ok (k a)) : mapOutcome f (l.map g) = .ok (l.map k) := by
  induction l with
  | nil => rfl
  | cons a t ih =>
    rw [List.map_cons, mapOutcome, h a (by simp), ih fun b hb => h b (by simp [hb])]
    rfl

theorem batchInverse_ok {l : List F} (h : ∀ x ∈ l, x ≠ 0) : batchInverse l = .ok (l.map (·⁻¹)) := by
  unfold batchInverse
  rw [if_neg fun h0 => h 0 h0 rfl]

theorem batchInverse_eq_ok {l r : List F} :
    batchInverse l = .ok r ↔ (∀ x ∈ l, x ≠ 0) ∧ r = l.map (·⁻¹) := by
  unfold batchInverse
  split
  · rename_i h
    constructor
    · intro h'; cases h'
    · intro h'; exact absurd rfl (h'.1 0 h)
  · rename_i h
    simp only [Outcome.ok.injEq]
    constructor
    · rintro rfl; exact ⟨fun x hx h0 => h (h0 ▸ hx), rfl⟩
    · rintro ⟨-, rfl⟩; rfl

/-- The cells of a column of a table of rows. -/
theorem columnOf_rows (rows : List (List F)) (w c : Nat) (hw : ∀ r ∈ rows, r.length = w) (hc : c < w)
    (i : Nat) (hi : i < rows.length) :
    (columnOf rows.flatten c w rows.length)[i]? = (rows[i])[c]? := by
  unfold columnOf TraceTable.stepBy
  have hlen := length_flatten_const rows w hw
  have hcount : ((rows.flatten.drop c).length + w - 1) / w = rows.length := by
    rw [List.length_drop, hlen]
    have : rows.length * w - c + w - 1 = (w - 1 - c) + rows.length * w := by
      have : w ≤ rows.length * w := Nat.le_mul_of_pos_left w (by omega)
      omega
    rw [this, Nat.add_mul_div_right _ _ (by omega), Nat.div_eq_of_lt (by omega), Nat.zero_add]
  have hrow : (rows[i]).length = w := hw _ (List.getElem_mem _)
  rw [hcount, List.getElem?_take_of_lt hi, List.getElem?_map, List.getElem?_map,
    List.getElem?_range hi]
  simp only [Option.map_some]
  have h1 := flatten_getElem? rows w hw i c hi hc
  have h2 : (rows.flatten.drop c)[i * w]? = (rows[i])[c]? := by
    rw [List.getElem?_drop, Nat.add_comm, h1]
  unfold List.getD
  rw [h2]
  have hlt : c < (rows[i]).length := by omega
  rw [List.getElem?_eq_getElem hlt]
  rfl

variable {ta : TwoAdic F} {d : Domain F} {a b : Nat} {h g w : F}

theorem IsDomain.coset_ne (D : IsDomain ta d a b h g w) (hN : h ^ 2 ^ (a + b) ≠ 1) (i s : Nat) :
    w ^ i * h - g ^ s ≠ 0 := by
  intro hc
  apply hN
  have h1 : (w ^ i * h) ^ 2 ^ (a + b) = (g ^ s) ^ 2 ^ (a + b) := by rw [sub_eq_zero.mp hc]
  rwa [mul_pow, ← pow_mul, mul_comm i, pow_mul, D.w_primitive.pow_eq_one, one_pow, one_mul, ← pow_mul,
    mul_comm s, pow_add 2 a b, mul_assoc (2 ^ a) (2 ^ b) s, pow_mul g, D.g_primitive.pow_eq_one, one_pow,
    ← pow_add] at h1

theorem IsDomain.coset_pow (D : IsDomain ta d a b h g w) {v : F} (hb : 1 ≤ b) (hv : ta.root b = some v)
    (i : Nat) : (w ^ i * h) ^ 2 ^ a = v ^ (i % 2 ^ b) * h ^ 2 ^ a := by
  have h1 : w ^ 2 ^ a = v := root_pow (k := b) (j := a) hb hv (by rw [Nat.add_comm]; exact D.hw)
  have h2 : v ^ 2 ^ b = 1 := (ta.primitive b v hb hv).pow_eq_one
  rw [mul_pow, ← pow_mul, mul_comm i, pow_mul, h1, ← pow_eq_pow_mod i h2]

theorem env_defined (D : IsDomain ta d a b h g w) (hb : 1 ≤ b) : (ta.root b).isSome :=
  ta.defined b hb (by
    have := root_le_adicity D.hw
    omega)

/-- The zerofiers of the transition constraints repeat along the extended domain. -/
theorem zerofiers_ok (D : IsDomain ta d a b h g w) (hb : 1 ≤ b) (hb8 : b < 8) (hN : h ^ 2 ^ (a + b) ≠ 1) :
    ∃ powers zerofiers, ta.powersCoset (trailingZeros 8 (2 ^ b)) (2 ^ b) (h ^ 2 ^ a) = .ok powers ∧
      batchInverse (powers.map (· - 1)) = .ok zerofiers ∧ zerofiers.length = 2 ^ b ∧
      ∀ i, zerofiers[i % zerofiers.length]? = some (((w ^ i * h) ^ 2 ^ a - 1)⁻¹) := by
  obtain ⟨v, hv⟩ := Option.isSome_iff_exists.mp (env_defined D hb)
  refine ⟨_, _, by
    rw [trailingZeros_two_pow 8 b hb8]
    exact powersCoset_ok.mpr ⟨v, hv, rfl⟩, batchInverse_ok ?_, by simp, ?_⟩
  · intro x hx
    obtain ⟨y, hy, rfl⟩ := List.mem_map.mp hx
    obtain ⟨i, hi, rfl⟩ := List.mem_map.mp hy
    intro hc
    apply hN
    have hv1 : v ^ 2 ^ b = 1 := (ta.primitive b v hb hv).pow_eq_one
    have h1 : (v ^ i * h ^ 2 ^ a) ^ 2 ^ b = 1 := by rw [sub_eq_zero.mp hc, one_pow]
    rwa [mul_pow, ← pow_mul, mul_comm i, pow_mul, hv1, one_pow, one_mul, ← pow_mul, ← pow_add] at h1
  · intro i
    have hp : 0 < 2 ^ b := by positivity
    simp only [List.length_map, List.length_range, List.getElem?_map,
      List.getElem?_range (Nat.mod_lt i hp), Option.map_some]
    rw [D.coset_pow hb hv i]

/-- The factor of the exempted rows is the value of the exemption polynomial. -/
theorem exemptionFactor_ok (air : Air F Ch)
    (hlt : ∀ e ∈ air.context.transitionExemptions, e < air.traceLength)
    (hsingle : air.context.numTransitionExemptions = 1 →
      ∀ e ∈ air.context.transitionExemptions, ∀ e' ∈ air.context.transitionExemptions,
        0 < e → 0 < e' → e = e') {xs : Nat → F} {N : Nat} {n : Nat} (i : Nat)
    (hi : i < N) (hn : air.traceLength = n) (e : Nat) (he : e ∈ air.context.transitionExemptions) :
    exemptionFactor air.context.transitionExemptions air.context.numTransitionExemptions
      (((unique air.context.transitionExemptions).filter (0 < ·)).map fun e =>
        (List.range N).map fun i => (exemption g n (min e n)).eval (xs i)) e i
      = .ok ((exemption g n e).eval (xs i)) := by
  unfold exemptionFactor
  by_cases h0 : e = 0
  · subst h0
    simp [exemption_zero]
  simp only [h0, if_false]
  rw [unique_filter]
  set vector := unique (air.context.transitionExemptions.filter (0 < ·)) with hvec
  have hmem : e ∈ vector := by
    rw [hvec, mem_unique]
    exact List.mem_filter.mpr ⟨he, by simpa using Nat.pos_of_ne_zero h0⟩
  rw [hn] at hlt
  have hval : ∀ j, vector[j]? = some e →
      (do let e ← index (vector.map fun e =>
            (List.range N).map fun i => (exemption g n (min e n)).eval (xs i)) j
          index e i : Outcome Empty F) = .ok ((exemption g n e).eval (xs i)) := by
    intro j hj
    rw [index_ok (a := (List.range N).map fun i => (exemption g n (min e n)).eval (xs i))
      (by rw [List.getElem?_map, hj]; rfl), Outcome.bind_ok]
    apply index_ok
    rw [List.getElem?_map, List.getElem?_range hi, min_eq_left (hlt e he).le]
    rfl
  by_cases h1 : air.context.numTransitionExemptions = 1
  · simp only [h1, if_true]
    refine hval 0 ?_
    have hpos : 0 < vector.length := List.length_pos_of_mem hmem
    rw [List.getElem?_eq_getElem hpos]
    have hm : ∀ x ∈ vector, x ∈ air.context.transitionExemptions ∧ decide (0 < x) = true := by
      intro x hx
      rw [hvec, mem_unique, List.mem_filter] at hx
      exact hx
    have hm := hm vector[0] (List.getElem_mem _)
    congr 1
    exact hsingle h1 _ hm.1 _ he (by simpa using hm.2) (Nat.pos_of_ne_zero h0)
  · simp only [h1, if_false]
    obtain ⟨j, hj⟩ : ∃ j, vector.findIdx? (fun x => decide (x = e)) = some j := by
      rw [← Option.isSome_iff_exists, List.findIdx?_isSome, List.any_eq_true]
      exact ⟨e, hmem, by simp⟩
    rw [hj]
    have := List.findIdx?_eq_some_iff_getElem.mp hj
    obtain ⟨hjl, hje, -⟩ := this
    exact hval j (by rw [List.getElem?_eq_getElem hjl]; simpa using hje)

theorem evaluateTransitionExemptions_ok (D : IsDomain ta d a b h g w) {air : Air F Ch}
    (hn : air.traceLength = 2 ^ a) {l : List Nat} (hl : ∀ e ∈ l, e < air.traceLength) :
    evaluateTransitionExemptions ta (l.map fun e => exemption g (2 ^ a) (min e (2 ^ a))) d
      = .ok (l.map fun e => (List.range (2 ^ (a + b))).map fun i =>
          (exemption g (2 ^ a) (min e (2 ^ a))).eval (w ^ i * h)) := by
  unfold evaluateTransitionExemptions
  rw [D.blowup, D.size, D.cosetOffset]
  rw [mapOutcome_eq_map (g := fun p : F[X] => (List.range (2 ^ (a + b))).map fun i => p.eval (w ^ i * h)),
    List.map_map]
  · rfl
  · intro p hp
    obtain ⟨e, he, rfl⟩ := List.mem_map.mp hp
    refine evaluateOnLde_ok ?_ D.small D.hw
    rw [degree_eq_natDegree (exemption_monic g _ _).ne_zero, exemption_degree g _ _ (min_le_right _ _)]
    have := hl e he
    rw [hn] at this
    rw [min_eq_left this.le]
    exact_mod_cast this

/-- The trace on the extended domain, as the table the evaluator reads. -/
noncomputable def ldeTable (polys : List F[X]) (w h : F) (N : Nat) : TraceTable F :=
  ⟨((List.range N).map fun i => polys.map fun p => p.eval (w ^ i * h)).flatten, polys.length⟩

theorem boundaryEvaluationAt_ok (D : IsDomain ta d a b h g w) {bound n : Nat}
    {polys : List F[X]} {boundary : List (BoundaryConstraint F)}
    (hcols : ∀ c ∈ boundary, c.col < polys.length) (coeffs : List (F × F)) (i : Nat)
    (hi : i < 2 ^ (a + b)) :
    boundaryEvaluationAt
      (boundary.map fun c => (d.ldeRootsOfUnityCoset.map fun v => v - g ^ c.step).map (·⁻¹))
      (boundary.map fun c => (columnOf (ldeTable polys w h (2 ^ (a + b))).table c.col polys.length
        (2 ^ (a + b))).map (· - c.value))
      coeffs boundary.length i ((w ^ i * h) ^ (bound - n))
      = .ok (boundaryAt g (w ^ i * h) n bound (fun j => (polys.getD j 0).eval (w ^ i * h)) boundary
          coeffs) := by
  unfold boundaryEvaluationAt boundaryAt
  rw [foldlM_sum (g := fun x : Nat × F × F => match boundary[x.1]? with
    | some c => ((polys.getD c.col 0).eval (w ^ i * h) - c.value) / (w ^ i * h - g ^ c.step)
        * (x.2.1 * (w ^ i * h) ^ (bound - n) + x.2.2)
    | none => 0)]
  · rw [zero_add, zip_range_map boundary coeffs _ (fun (c, (α, β)) =>
      ((polys.getD c.col 0).eval (w ^ i * h) - c.value) / (w ^ i * h - g ^ c.step)
        * (α * (w ^ i * h) ^ (bound - n) + β))]
    intro j c y hj _
    simp only [hj]
  · rintro ⟨j, α, β⟩ hx acc
    have hj : j < boundary.length := by
      have := (List.of_mem_zip hx).1
      simpa using this
    have hc := hcols _ (List.getElem_mem hj)
    set c := boundary[j] with hcdef
    have hbj : boundary[j]? = some c := List.getElem?_eq_getElem hj
    have hz : ((d.ldeRootsOfUnityCoset.map fun v => v - g ^ c.step).map (·⁻¹))[i]?
        = some ((w ^ i * h - g ^ c.step)⁻¹) := by
      rw [List.getElem?_map, List.getElem?_map, D.lde_getElem? hi]; rfl
    have hcol := columnOf_rows ((List.range (2 ^ (a + b))).map fun i =>
      polys.map fun p => p.eval (w ^ i * h)) polys.length c.col (by
        intro r hr
        obtain ⟨k, -, rfl⟩ := List.mem_map.mp hr
        simp) hc i (by simpa using hi)
    simp only [List.length_map, List.length_range, List.getElem_map, List.getElem_range,
      List.getElem?_map] at hcol
    rw [List.getElem?_eq_getElem hc] at hcol
    have hp : ((columnOf (ldeTable polys w h (2 ^ (a + b))).table c.col polys.length
        (2 ^ (a + b))).map (· - c.value))[i]?
        = some ((polys.getD c.col 0).eval (w ^ i * h) - c.value) := by
      rw [List.getElem?_map]
      unfold ldeTable
      simp only [hcol, Option.map_some, List.getD, List.getElem?_eq_getElem hc, Option.getD_some]
    simp only [index_ok (show (boundary.map fun c =>
        (d.ldeRootsOfUnityCoset.map fun v => v - g ^ c.step).map (·⁻¹))[j]? = some _ by
          rw [List.getElem?_map, hbj]; rfl),
      index_ok (show (boundary.map fun c => (columnOf (ldeTable polys w h (2 ^ (a + b))).table c.col
        polys.length (2 ^ (a + b))).map (· - c.value))[j]? = some _ by
          rw [List.getElem?_map, hbj]; rfl), Outcome.bind_ok, index_ok hz, index_ok hp,
      Outcome.pure_eq, hbj, Outcome.ok.injEq]
    rw [div_eq_mul_inv]
    ring

theorem transitionEvaluationAt_ok {air : Air F Ch} (hfit : Fits air) {n N : Nat}
    (hn : air.traceLength = n) {xs : Nat → F} {i : Nat} (hi : i < N) {m : Nat}
    (hm : air.context.transitionDegrees.max? = some m) (evals : List F) (coeffs : List (F × F)) :
    transitionEvaluationAt air.context
      (((unique air.context.transitionExemptions).filter (0 < ·)).map fun e =>
        (List.range N).map fun i => (exemption g n (min e n)).eval (xs i))
      ((List.range m).map fun k => (List.range N).map fun i =>
        xs i ^ (air.compositionPolyDegreeBound - n * k))
      evals coeffs (xs i ^ n - 1)⁻¹ i
      = .ok (transitionAt g (xs i) n air.compositionPolyDegreeBound evals
          air.context.transitionDegrees air.context.transitionExemptions coeffs) := by
  unfold transitionEvaluationAt transitionAt
  rw [foldlM_sum (g := fun x : ((F × Nat) × Nat) × F × F =>
    x.1.1.1 * (exemption g n x.1.1.2).eval (xs i) / (xs i ^ n - 1)
      * (x.2.1 * xs i ^ (air.compositionPolyDegreeBound - n * (x.1.2 - 1)) + x.2.2))]
  · rw [zero_add]
    refine congrArg Outcome.ok (congrArg List.sum (List.ext_getElem ?_ fun j h1 h2 => ?_))
    · simp only [List.length_map, List.length_zip]
      omega
    · simp only [List.getElem_map, List.getElem_zip]
  · rintro ⟨⟨⟨v, e⟩, dg⟩, α, β⟩ hx acc
    have hx1 := (List.of_mem_zip hx).1
    have hdg : dg ∈ air.context.transitionDegrees := (List.of_mem_zip hx1).2
    have he : e ∈ air.context.transitionExemptions := (List.of_mem_zip (List.of_mem_zip hx1).1).2
    have hd1 := hfit.degrees_pos dg hdg
    have hdm : dg ≤ m := (List.max?_eq_some_iff.mp hm).2 dg hdg
    simp only [checkedSub, if_pos hd1, Outcome.bind_ok]
    rw [index_ok (a := (List.range N).map fun i =>
        xs i ^ (air.compositionPolyDegreeBound - n * (dg - 1))) (by
        rw [List.getElem?_map, List.getElem?_range (by omega)]; rfl), Outcome.bind_ok,
      index_ok (a := xs i ^ (air.compositionPolyDegreeBound - n * (dg - 1))) (by
        rw [List.getElem?_map, List.getElem?_range hi]; rfl), Outcome.bind_ok,
      exemptionFactor_ok air hfit.exemptions_lt hfit.single_exemption i hi hn e he, Outcome.bind_ok,
      Outcome.pure_eq]
    refine congrArg Outcome.ok ?_
    rw [div_eq_mul_inv]
    ring

theorem Spec.Fits.max {air : Air F Ch} (hfit : Fits air) :
    ∃ m, air.context.transitionDegrees.max? = some m := by
  cases h : air.context.transitionDegrees.max? with
  | none =>
    have h1 := List.max?_eq_none_iff.mp h
    have h2 := hfit.degrees_len
    have h3 := hfit.constraints_pos
    rw [h1] at h2
    simp at h2
    omega
  | some m => exact ⟨m, rfl⟩

theorem Spec.Fits.adjustments {air : Air F Ch} (hfit : Fits air) {m : Nat}
    (hm : air.context.transitionDegrees.max? = some m) {β : Type} (f : Nat → β) :
    mapOutcome (fun k => (do
      let adjustment ← checkedSub air.compositionPolyDegreeBound (air.traceLength * k)
      return f adjustment : Outcome Empty β)) (List.range m)
      = .ok ((List.range m).map fun k => f (air.compositionPolyDegreeBound - air.traceLength * k)) := by
  refine mapOutcome_eq_map _ fun k hk => ?_
  have hmm := (List.max?_eq_some_iff.mp hm).1
  have h1 := hfit.bound_degrees m hmm
  have h2 : k ≤ m - 1 := by have := List.mem_range.mp hk; omega
  have h3 := Nat.mul_le_mul_left air.traceLength h2
  simp only [checkedSub, if_pos (h3.trans h1), Outcome.bind_ok, Outcome.pure_eq]

theorem cycleTake_from {α : Type} {orig : List α} {f : Nat → α} (h : ∀ i, orig[i % orig.length]? = some (f i))
    (k n m : Nat) (hm : m ≤ orig.length) (hnm : m % orig.length = n % orig.length) :
    cycleTake orig (orig.drop m) k = (List.range k).map fun i => f (n + i) := by
  induction k generalizing n m with
  | zero => simp [cycleTake]
  | succ k ih =>
    rw [List.range_succ_eq_map, List.map_cons, List.map_map]
    have hf : (fun i => f (n + i)) ∘ Nat.succ = fun i => f (n + 1 + i) := by
      funext i
      simp only [Function.comp, Nat.succ_eq_add_one]
      congr 1
      omega
    rw [hf]
    have hpos : 0 < orig.length := by
      have h0 := h 0
      by_contra hc
      rw [List.length_eq_zero_iff.mp (Nat.eq_zero_of_not_pos hc)] at h0
      simp at h0
    rcases Nat.lt_or_ge m orig.length with hlt | hge
    · have hx := h n
      rw [← hnm, Nat.mod_eq_of_lt hlt, List.getElem?_eq_getElem hlt] at hx
      rw [List.drop_eq_getElem_cons hlt, cycleTake, ih (n + 1) (m + 1) hlt (by
        rw [Nat.add_mod, hnm, ← Nat.add_mod]), Option.some.inj hx]
      rfl
    · obtain rfl : m = orig.length := le_antisymm hm hge
      rw [Nat.mod_self] at hnm
      have hx := h n
      rw [← hnm, List.getElem?_eq_getElem hpos] at hx
      have ih := ih (n + 1) 1 hpos (by rw [Nat.add_mod n, ← hnm]; simp)
      rw [List.drop_length]
      cases orig with
      | nil => simp at hpos
      | cons x t =>
        rw [cycleTake]
        simp only [List.getElem_cons_zero, List.drop_succ_cons, List.drop_zero] at hx ih
        obtain rfl := Option.some.inj hx
        simp only [ih, Nat.add_zero]

theorem cycleTake_eq {α : Type} {orig : List α} {f : Nat → α} (h : ∀ i, orig[i % orig.length]? = some (f i))
    (k : Nat) : cycleTake orig orig k = (List.range k).map f := by
  simpa using cycleTake_from h k 0 0 (Nat.zero_le _) rfl

/-- The evaluator computes the values of the composition on the extended domain. -/
theorem evaluateConstraints_ok (D : IsDomain ta d a b h g w) {air : Air F Ch} (hfit : Fits air)
    (hn : air.traceLength = 2 ^ a) (hblow : air.context.proofOptions.blowupFactor.toNat = 2 ^ b)
    (hb : 1 ≤ b) (hh : (air.context.proofOptions.cosetOffset : F) = h) (hN : h ^ 2 ^ (a + b) ≠ 1)
    {polys : List F[X]} (hp : polys.length = air.context.traceColumns)
    {boundary : List (BoundaryConstraint F)} (hcols : ∀ c ∈ boundary, c.col < polys.length) {ch : Ch}
    (evals : Nat → List F)
    (hev : ∀ i < 2 ^ (a + b), air.computeTransition
      ⟨(frameRows polys air.context.transitionOffsets g (w ^ i * h)).flatten, polys.length⟩ ch
        = .ok (evals i))
    (transitionCoeffs boundaryCoeffs : List (F × F)) :
    evaluateConstraints ta air boundary (ldeTable polys w h (2 ^ (a + b))) d transitionCoeffs
      boundaryCoeffs ch
      = .ok ((List.range (2 ^ (a + b))).map fun i => compositionAt air g polys boundary (evals i)
          boundaryCoeffs transitionCoeffs (w ^ i * h)) := by
  have hb8 : b < 8 := by
    by_contra hc
    have h1 : 2 ^ 8 ≤ 2 ^ b := Nat.pow_le_pow_right (by norm_num) (by omega)
    have h2 := air.context.proofOptions.blowupFactor.toNat_lt
    omega
  obtain ⟨v, hv⟩ := Option.isSome_iff_exists.mp (env_defined D hb)
  obtain ⟨m, hm⟩ := hfit.max
  unfold evaluateConstraints
  simp only
  rw [mapOutcome_eq_map (g := fun c : BoundaryConstraint F =>
    (d.ldeRootsOfUnityCoset.map fun v => v - g ^ c.step).map (·⁻¹)), Outcome.bind_ok]
  swap
  · intro c _
    rw [D.tracePrimitiveRoot]
    refine batchInverse_ok fun x hx => ?_
    obtain ⟨y, hy, rfl⟩ := List.mem_map.mp hx
    rw [D.lde] at hy
    obtain ⟨i, -, rfl⟩ := List.mem_map.mp hy
    exact D.coset_ne hN i _
  rw [checkedSub, if_pos hfit.bound_ge, Outcome.bind_ok, if_neg (by
    rintro ⟨h1, -⟩
    have := hfit.columns_pos
    simp only [ldeTable] at h1
    omega)]
  have hlen := D.lde_length
  have hzip : ∀ (f : Nat → F) (l : List F), l = (List.range (2 ^ (a + b))).map f →
      (List.range (2 ^ (a + b))).zip l = (List.range (2 ^ (a + b))).map fun i => (i, f i) := by
    rintro f l rfl
    refine List.ext_getElem (by simp) fun j h1 h2 => ?_
    simp
  rw [hlen, hn, hzip (fun i => (w ^ i * h) ^ (air.compositionPolyDegreeBound - 2 ^ a)) _ (by
    rw [D.lde, List.map_map]; rfl)]
  rw [mapOutcome_comp (k := fun i => boundaryAt g (w ^ i * h) (2 ^ a) air.compositionPolyDegreeBound
    (fun j => (polys.getD j 0).eval (w ^ i * h)) boundary boundaryCoeffs), Outcome.bind_ok]
  swap
  · intro i hi
    exact boundaryEvaluationAt_ok D hcols boundaryCoeffs i (List.mem_range.mp hi)
  have ha64 : a < 64 := by have := D.small; omega
  rw [transitionExemptions_eq ha64 hn D.hg, Outcome.bind_ok,
    evaluateTransitionExemptions_ok D hn (by
      intro e he
      exact hfit.exemptions_lt e ((mem_unique _ _).mp (List.mem_filter.mp he).1)), Outcome.bind_ok, hm]
  simp only [Outcome.ofOptionUnwrap, Outcome.bind_ok]
  have hadj := hfit.adjustments hm (f := fun k => d.ldeRootsOfUnityCoset.map (· ^ k))
  rw [hn] at hadj
  rw [hadj, Outcome.bind_ok]
  obtain ⟨powers, zerofiers, hz1, hz2, hz3, hz4⟩ := zerofiers_ok D hb hb8 hN
  rw [hblow, hh, hz1, Outcome.bind_ok, hz2, Outcome.bind_ok, hzip _ _ rfl, cycleTake_eq (fun i => hz4 i)]
  rw [List.zip_map']
  refine mapOutcome_comp _ fun i hi => ?_
  have hi := List.mem_range.mp hi
  simp only [evaluateRow]
  rw [hblow]
  have hframe := Props.C34_frame_extended_domain polys h w (2 ^ (a + b)) (by positivity)
    D.w_primitive.pow_eq_one (by
      have := hfit.columns_pos
      intro hc
      rw [hc] at hp
      simp at hp
      omega) (ldeTable polys w h (2 ^ (a + b))) (by
        unfold ldeTable
        simp only [mul_comm]) i (2 ^ b) air.context.transitionOffsets
  rw [hframe, Outcome.bind_ok, D.w_pow, mul_comm h]
  have hfr : Frame.getTraceEvaluations polys (w ^ i * h) air.context.transitionOffsets g
      = frameRows polys air.context.transitionOffsets g (w ^ i * h) := by
    unfold Frame.getTraceEvaluations frameRows
    simp [List.map_map, Function.comp_def]
  rw [hfr, hev i hi, Outcome.bind_ok]
  have ht := transitionEvaluationAt_ok (g := g) hfit hn (xs := fun i => w ^ i * h) hi hm (evals i)
    transitionCoeffs
  have hl : ∀ k : Nat, d.ldeRootsOfUnityCoset.map (· ^ k)
      = (List.range (2 ^ (a + b))).map fun i => (w ^ i * h) ^ k := by
    intro k
    rw [D.lde, List.map_map]; rfl
  simp only [hl]
  rw [ht, Outcome.bind_ok, Outcome.pure_eq]
  unfold compositionAt compositionOf
  rw [hn, add_comm]

end Verif
