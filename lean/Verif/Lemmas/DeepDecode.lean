import Verif.Spec.Soundness
import Verif.Lemmas.StarkSound

/-!
# From close quotients to polynomials with the claimed values
-/

namespace Verif.Proximity
open Polynomial Spec Finset
variable {F Ch : Type} [Field F] [DecidableEq F]

/-- The word of quotients of a word at a point. -/
def quotient (x : Nat → F) (f : Nat → F) (y v : F) (s : Nat) : F := (f s - v) / (x s - y)

/-- The words that the DEEP values combine. -/
def quotients (proof : StarkProof F) (z g : F) (x : Nat → F) (cols : List (Nat → F)) (offs : Nat)
    (even odd : Nat → F) : List (Nat → F) :=
  quotient x even (z ^ 2) proof.compositionPolyEvenOodEvaluation ::
  quotient x odd (z ^ 2) proof.compositionPolyOddOodEvaluation ::
  (List.range (cols.length * offs)).map fun i => quotient x (cols.getD (i / offs) 0) (z * g ^ (i % offs))
    (frameCell proof.traceOodFrameEvaluations (i % offs) (i / offs))

omit [DecidableEq F] in
theorem coeffRows_sum {offs : Nat} (ho : 0 < offs) (k : Nat) (γ : List F) (hγ : γ.length = k * offs)
    (Q : Nat → Nat → F) :
    (((List.range k).zip (coeffRows offs k γ)).map fun x =>
      (((List.range offs).zip x.2).map fun y => y.2 * Q x.1 y.1).sum).sum
      = (List.zipWith (· * ·) γ ((List.range (k * offs)).map fun i => Q (i / offs) (i % offs))).sum := by
  induction k generalizing γ Q with
  | zero => simp [coeffRows]
  | succ k ih =>
    have hle : offs ≤ γ.length := by rw [hγ, Nat.succ_mul]; omega
    have hdrop : (γ.drop offs).length = k * offs := by
      rw [List.length_drop, hγ, Nat.succ_mul]; omega
    have htake : (γ.take offs).length = offs := by rw [List.length_take]; omega
    rw [List.range_succ_eq_map, coeffRows, List.zip_cons_cons, List.map_cons, List.sum_cons, List.zip_map_left,
      List.map_map]
    have h1 := ih (γ.drop offs) hdrop fun j r => Q (j + 1) r
    simp only [Function.comp_def, Prod.map_fst, Prod.map_snd, id, Nat.succ_eq_add_one]
    rw [h1]
    have h2 : List.range ((k + 1) * offs) = List.range offs ++ (List.range (k * offs)).map (offs + ·) := by
      rw [Nat.succ_mul, Nat.add_comm, List.range_add]
    rw [h2, List.map_append, List.map_map]
    conv_rhs => rw [← List.take_append_drop offs γ]
    rw [List.zipWith_append (by simp; omega), List.sum_append]
    congr 1
    · congr 1
      refine List.ext_getElem (by simp) fun i hi1 hi2 => ?_
      have hi : i < offs := by simp at hi1; omega
      simp [Nat.div_eq_of_lt hi, Nat.mod_eq_of_lt hi]
    · congr 2
      refine List.map_congr_left fun i _ => ?_
      simp [Nat.add_div_left _ ho]

omit [DecidableEq F] in
theorem deepWord_eq {proof : StarkProof F} {cols : List (Nat → F)} {offs : Nat} (ho : 0 < offs)
    (hw : proof.traceOodFrameEvaluations.rowWidth = cols.length) (hcols : 0 < cols.length)
    (hd : proof.traceOodFrameEvaluations.data.length = offs * cols.length) {γ : List F}
    (hγ : γ.length = cols.length * offs) (ch : Ch) (αB βB αT βT : List F) (z γe γo g : F) (x : Nat → F)
    (even odd : Nat → F) :
    deepWord proof (challengesOf ch αB βB αT βT z γe γo (coeffRows offs cols.length γ)) g x cols even odd
      = combination (fun _ => 0) (quotients proof z g x cols offs even odd) (γe :: γo :: γ) := by
  funext s
  have hh : frameHeight proof.traceOodFrameEvaluations = offs := by
    unfold frameHeight
    rw [hd, hw, Nat.mul_div_cancel _ hcols]
  have h1 := coeffRows_sum ho cols.length γ hγ fun j r =>
    quotient x (cols.getD j 0) (z * g ^ r) (frameCell proof.traceOodFrameEvaluations r j) s
  have h2 : List.zipWith (fun c f => c * f s) γ ((List.range (cols.length * offs)).map fun i =>
      quotient x (cols.getD (i / offs) 0) (z * g ^ (i % offs))
        (frameCell proof.traceOodFrameEvaluations (i % offs) (i / offs)))
      = List.zipWith (· * ·) γ ((List.range (cols.length * offs)).map fun i =>
        quotient x (cols.getD (i / offs) 0) (z * g ^ (i % offs))
          (frameCell proof.traceOodFrameEvaluations (i % offs) (i / offs)) s) := by
    refine List.ext_getElem (by simp) fun i _ _ => ?_
    simp
  have h3 : ∀ j, (cols.map fun f => f s).getD j 0 = cols.getD j 0 s := by
    intro j
    rw [List.getD_eq_getElem?_getD, List.getD_eq_getElem?_getD, List.getElem?_map]
    cases cols[j]? <;> rfl
  unfold deepWord deepValue combination quotients challengesOf openingAt
  simp only [hh, hw, h3, List.zipWith_cons_cons, List.sum_cons, h2, zero_add]
  rw [← h1]
  simp only [quotient]
  ring

/-- Nearness of words that are known to be near polynomials. -/
theorem decodes_card {N : Nat} {x : Nat → F} {k R : Nat} {words : List (Nat → F)} {polys : List F[X]}
    (h : Decodes N x k R words polys) : N ≤ (agreeing N x words polys).card + R := by
  obtain ⟨good, h1, h2⟩ := h.agree
  refine h1.trans (Nat.add_le_add_right (Finset.card_le_card fun s hs => ?_) R)
  obtain ⟨h3, h4⟩ := h2 s hs
  refine mem_agreeing.mpr ⟨h3, List.forall₂_iff_get.mpr ⟨h.length.symm, fun i hi1 hi2 => ?_⟩⟩
  exact h4 i _ _ (List.getElem?_eq_getElem hi1) (List.getElem?_eq_getElem hi2)

theorem decodes_unique {N : Nat} {x : Nat → F} (hx : Set.InjOn x (Finset.range N : Finset Nat)) {k R : Nat}
    (hR : 2 * R + k ≤ N) (hR1 : R < N) {words : List (Nat → F)} {polys polys' : List F[X]}
    (h : Decodes N x k R words polys) (h' : Decodes N x k R words polys') : polys = polys' :=
  agreeing_unique hx hR hR1 h.degree h'.degree (decodes_card h) (decodes_card h')

/-- A polynomial of which a quotient is close to a word. -/
theorem lift_degree {P : F[X]} {n : Nat} (hP : P.degree < n) (v y : F) :
    (C v + (X - C y) * P).degree < ((n + 1 : Nat) : WithBot Nat) := by
  refine lt_of_le_of_lt (degree_add_le _ _) (max_lt ?_ ?_)
  · exact lt_of_le_of_lt degree_C_le (by exact_mod_cast Nat.succ_pos n)
  · by_cases h0 : P = 0
    · rw [h0, mul_zero, degree_zero]; exact WithBot.bot_lt_coe _
    · rw [degree_mul, degree_X_sub_C, Nat.cast_add, Nat.cast_one, add_comm]
      rw [degree_eq_natDegree h0] at hP ⊢
      have : P.natDegree < n := by exact_mod_cast hP
      exact_mod_cast Nat.add_lt_add_right this 1

omit [DecidableEq F] in
theorem lift_eval {x f : Nat → F} {y v : F} {P : F[X]} {s : Nat} (hs : x s ≠ y)
    (h : quotient x f y v s = P.eval (x s)) : f s = (C v + (X - C y) * P).eval (x s) := by
  have : x s - y ≠ 0 := sub_ne_zero.mpr hs
  unfold quotient at h
  rw [div_eq_iff this] at h
  simp only [eval_add, eval_C, eval_mul, eval_sub, eval_X]
  linear_combination h

/-- Quotients that are jointly close to polynomials come from columns and halves that are jointly close to
polynomials with the claimed values. -/
theorem decode_of_near {N : Nat} {x : Nat → F} (hx : Set.InjOn x (Finset.range N : Finset Nat)) {n R : Nat}
    (hR : R + n + 1 ≤ N) {proof : StarkProof F} {z g : F} {cols : List (Nat → F)} {offs : Nat} (ho : 0 < offs)
    {even odd : Nat → F} (h1 : ∀ s < N, ∀ r, x s ≠ z * g ^ r) (h2 : ∀ s < N, x s ≠ z ^ 2)
    (h : JointNear N x (quotients proof z g x cols offs even odd) n R) :
    ∃ polys pe po, Decodes N x (n + 1) R cols polys ∧ Decodes N x (n + 1) R [even, odd] [pe, po] ∧
      (∀ j < cols.length, ∀ r < offs, (polys.getD j 0).eval (z * g ^ r)
        = frameCell proof.traceOodFrameEvaluations r j) ∧
      pe.eval (z ^ 2) = proof.compositionPolyEvenOodEvaluation ∧
      po.eval (z ^ 2) = proof.compositionPolyOddOodEvaluation := by
  obtain ⟨ps, hdeg, hcard⟩ := h
  set G := agreeing N x (quotients proof z g x cols offs even odd) ps with hG
  have hlen : ps.length = cols.length * offs + 2 := by
    obtain ⟨s, hs⟩ := Finset.card_pos.mp (by omega : 0 < G.card)
    have := (mem_agreeing.mp hs).2.length_eq
    simp [quotients] at this
    omega
  obtain ⟨Pe, ps, rfl⟩ := List.exists_cons_of_length_eq_add_one hlen
  obtain ⟨Po, ps, rfl⟩ := List.exists_cons_of_length_eq_add_one (by simpa using hlen)
  have hlen : ps.length = cols.length * offs := by simpa using hlen
  have hG1 : ∀ s ∈ G, s < N ∧ quotient x even (z ^ 2) proof.compositionPolyEvenOodEvaluation s = Pe.eval (x s) ∧
      quotient x odd (z ^ 2) proof.compositionPolyOddOodEvaluation s = Po.eval (x s) ∧
      ∀ j < cols.length, ∀ r < offs, quotient x (cols.getD j 0) (z * g ^ r)
        (frameCell proof.traceOodFrameEvaluations r j) s = (ps.getD (j * offs + r) 0).eval (x s) := by
    intro s hs
    obtain ⟨h3, h4⟩ := mem_agreeing.mp hs
    unfold quotients at h4
    rw [List.forall₂_cons, List.forall₂_cons] at h4
    refine ⟨h3, h4.1, h4.2.1, fun j hj r hr => ?_⟩
    have hlt : j * offs + r < cols.length * offs := by
      have : (j + 1) * offs ≤ cols.length * offs := Nat.mul_le_mul_right _ hj
      rw [Nat.succ_mul] at this
      omega
    have := (List.forall₂_iff_get.mp h4.2.2).2 (j * offs + r) (by simpa using hlt) (by omega)
    simp only [List.get_eq_getElem, List.getElem_map, List.getElem_range] at this
    have e1 : (j * offs + r) / offs = j := by
      rw [Nat.mul_comm j, Nat.mul_add_div ho, Nat.div_eq_of_lt hr, add_zero]
    have e2 : (j * offs + r) % offs = r := by rw [Nat.mul_comm j, Nat.mul_add_mod, Nat.mod_eq_of_lt hr]
    rw [e1, e2] at this
    rw [this, List.getD_eq_getElem?_getD, List.getElem?_eq_getElem (by omega)]
    rfl
  have hdps : ∀ i, (ps.getD i 0).degree < n := by
    intro i
    rw [List.getD_eq_getElem?_getD]
    cases hi : ps[i]? with
    | none => rw [Option.getD_none, degree_zero]; exact WithBot.bot_lt_coe _
    | some p => exact hdeg p (List.mem_cons_of_mem _ (List.mem_cons_of_mem _ (List.mem_of_getElem? hi)))
  let L := fun j r => C (frameCell proof.traceOodFrameEvaluations r j) + (X - C (z * g ^ r)) * ps.getD (j * offs + r) 0
  have hLdeg : ∀ j r, (L j r).degree < ((n + 1 : Nat) : WithBot Nat) := fun j r => lift_degree (hdps _) _ _
  have hLeval : ∀ s ∈ G, ∀ j < cols.length, ∀ r < offs, cols.getD j 0 s = (L j r).eval (x s) := by
    intro s hs j hj r hr
    obtain ⟨h3, -, -, h4⟩ := hG1 s hs
    exact lift_eval (h1 s h3 r) (h4 j hj r hr)
  have hLsame : ∀ j < cols.length, ∀ r < offs, L j r = L j 0 := by
    intro j hj r hr
    rw [← sub_eq_zero]
    refine zero_of_agree (k := n + 1) (cap := 1) G x (fun y => ?_) (by omega) one_pos
      (lt_of_le_of_lt (degree_sub_le _ _) (max_lt (hLdeg j r) (hLdeg j 0))) fun s hs => ?_
    · rw [Finset.card_le_one]
      intro s hs t ht
      obtain ⟨s1, s2⟩ := Finset.mem_filter.mp hs
      obtain ⟨t1, t2⟩ := Finset.mem_filter.mp ht
      exact hx (Finset.mem_coe.mpr (agreeing_subset s1)) (Finset.mem_coe.mpr (agreeing_subset t1))
        (s2.trans t2.symm)
    · rw [eval_sub, ← hLeval s hs j hj r hr, ← hLeval s hs j hj 0 ho, sub_self]
  refine ⟨(List.range cols.length).map fun j => L j 0,
    C proof.compositionPolyEvenOodEvaluation + (X - C (z ^ 2)) * Pe,
    C proof.compositionPolyOddOodEvaluation + (X - C (z ^ 2)) * Po, ⟨by simp, ?_, G, hcard, ?_⟩,
    ⟨rfl, ?_, G, hcard, ?_⟩, ?_, by simp, by simp⟩
  · intro p hp
    obtain ⟨j, -, rfl⟩ := List.mem_map.mp hp
    exact hLdeg j 0
  · intro s hs
    refine ⟨(hG1 s hs).1, fun j f p hf hp => ?_⟩
    have hj := (List.getElem?_eq_some_iff.mp hf).1
    rw [List.getElem?_map, List.getElem?_range hj] at hp
    obtain rfl := Option.some.inj hp
    have := hLeval s hs j hj 0 ho
    rw [List.getD_eq_getElem?_getD, hf] at this
    exact this
  · intro p hp
    rcases List.mem_cons.mp hp with rfl | hp
    · exact lift_degree (hdeg Pe (by simp)) _ _
    · rcases List.mem_cons.mp hp with rfl | hp
      · exact lift_degree (hdeg Po (by simp)) _ _
      · cases hp
  · intro s hs
    obtain ⟨h3, h4, h5, -⟩ := hG1 s hs
    refine ⟨h3, fun j f p hf hp => ?_⟩
    rcases j with _ | _ | j
    · obtain rfl := Option.some.inj hf
      obtain rfl := Option.some.inj hp
      exact lift_eval (h2 s h3) h4
    · obtain rfl := Option.some.inj hf
      obtain rfl := Option.some.inj hp
      exact lift_eval (h2 s h3) h5
    · simp at hf
  · intro j hj r hr
    rw [List.getD_eq_getElem?_getD, List.getElem?_map, List.getElem?_range hj]
    simp only [Option.map_some, Option.getD_some]
    rw [← hLsame j hj r hr]
    simp [L]

omit [DecidableEq F] in
/-- The frame of a proof from its cells. -/
theorem frame_eq {frame : Frame F} {polys : List F[X]} {offs : Nat} {z g : F} (hw : frame.rowWidth = polys.length)
    (hd : frame.data.length = offs * polys.length)
    (h : ∀ j < polys.length, ∀ r < offs, (polys.getD j 0).eval (z * g ^ r) = frameCell frame r j) :
    frame = ⟨(frameRows polys (List.range offs) g z).flatten, polys.length⟩ := by
  obtain ⟨data, rowWidth⟩ := frame
  simp only at hw hd
  subst hw
  congr 1
  have hrows : ∀ r ∈ frameRows polys (List.range offs) g z, r.length = polys.length := by
    intro r hr
    obtain ⟨o, -, rfl⟩ := List.mem_map.mp hr
    simp
  have hfl := length_flatten_const _ _ hrows
  have hfr : (frameRows polys (List.range offs) g z).length = offs := by simp [frameRows]
  rw [hfr] at hfl
  refine List.ext_getElem (hd.trans hfl.symm) fun i hi1 hi2 => ?_
  have hi : i < offs * polys.length := by omega
  have hpos : 0 < polys.length := by
    by_contra hc
    have : polys.length = 0 := by omega
    rw [this, Nat.mul_zero] at hi
    omega
  have hr : i / polys.length < offs := by rw [Nat.div_lt_iff_lt_mul hpos]; exact hi
  have hj : i % polys.length < polys.length := Nat.mod_lt _ hpos
  have hij : i / polys.length * polys.length + i % polys.length = i := Nat.div_add_mod' _ _
  have h1 := h _ hj _ hr
  have h2 := flatten_getElem? _ _ hrows (i / polys.length) (i % polys.length) (by omega) hj
  unfold frameCell at h1
  simp only at h1
  rw [hij] at h1 h2
  rw [List.getElem?_eq_getElem hi2] at h2
  rw [List.getD_eq_getElem?_getD (l := data), List.getElem?_eq_getElem hi1, Option.getD_some] at h1
  rw [← h1]
  refine (Option.some.inj (h2.trans ?_)).symm
  rw [List.getD_eq_getElem?_getD, List.getElem?_eq_getElem hj]
  simp only [frameRows, List.getElem_map, List.getElem_range, List.getElem?_map, List.getElem?_eq_getElem hj]
  rfl

variable {ta : TwoAdic F} {d : Domain F} {a b : Nat} {h g w : F}

omit [DecidableEq F] in
theorem domain_injOn (D : IsDomain ta d a b h g w) (hh : h ≠ 0) :
    Set.InjOn (fun s => w ^ s * h) (Finset.range (2 ^ (a + b)) : Finset Nat) := by
  intro s hs t ht he
  have hw : IsPrimitiveRoot w (2 ^ (a + b)) := ta.primitive _ _ (by have := D.a_pos; omega) D.hw
  exact hw.pow_inj (by simpa using hs) (by simpa using ht) (mul_right_cancel₀ hh he)

/-- A point off the coset is not moved to it by the generator of the trace domain. -/
theorem off_coset (D : IsDomain ta d a b h g w) {z : F}
    (hz : z ∉ (Finset.range (2 ^ (a + b))).image fun s => w ^ s * h) (s r : Nat) : w ^ s * h ≠ z * g ^ r := by
  intro he
  apply hz
  have hw : IsPrimitiveRoot w (2 ^ (a + b)) := ta.primitive _ _ (by have := D.a_pos; omega) D.hw
  have hg : g = w ^ 2 ^ b := D.w_pow.symm
  refine Finset.mem_image.mpr ⟨(s + 2 ^ b * r * (2 ^ (a + b) - 1)) % 2 ^ (a + b),
    Finset.mem_range.mpr (Nat.mod_lt _ (by positivity)), ?_⟩
  have h1 : g ^ r * w ^ (2 ^ b * r * (2 ^ (a + b) - 1)) = 1 := by
    rw [hg, ← pow_mul, ← pow_add]
    have : 2 ^ b * r + 2 ^ b * r * (2 ^ (a + b) - 1) = 2 ^ (a + b) * (2 ^ b * r) := by
      obtain ⟨m, hm⟩ := Nat.exists_eq_succ_of_ne_zero (show 2 ^ (a + b) ≠ 0 by positivity)
      rw [hm, Nat.succ_eq_add_one, Nat.add_sub_cancel]
      ring
    rw [this, pow_mul, hw.pow_eq_one, one_pow]
  rw [← pow_eq_pow_mod _ hw.pow_eq_one, pow_add]
  calc w ^ s * w ^ (2 ^ b * r * (2 ^ (a + b) - 1)) * h = w ^ s * h * w ^ (2 ^ b * r * (2 ^ (a + b) - 1)) := by ring
    _ = z * (g ^ r * w ^ (2 ^ b * r * (2 ^ (a + b) - 1))) := by rw [he]; ring
    _ = z := by rw [h1, mul_one]

/-- The points at which a denominator of the DEEP values may vanish. -/
noncomputable def badPoints (N : Nat) (x : Nat → F) : Finset F :=
  (Finset.range N).image x ∪ (Finset.range N).biUnion fun s => (X ^ 2 - C (x s)).roots.toFinset

theorem badPoints_card (N : Nat) (x : Nat → F) : (badPoints N x).card ≤ 3 * N := by
  refine (Finset.card_union_le _ _).trans ?_
  have h1 : ((Finset.range N).image x).card ≤ N := by
    have := Finset.card_image_le (s := Finset.range N) (f := x)
    rwa [Finset.card_range] at this
  have h2 : ((Finset.range N).biUnion fun s => (X ^ 2 - C (x s)).roots.toFinset).card ≤ N * 2 := by
    refine Finset.card_biUnion_le_card_mul _ _ _ (fun s _ => ?_) |>.trans (by rw [Finset.card_range])
    refine (Multiset.toFinset_card_le _).trans ((card_roots' _).trans ?_)
    rw [natDegree_X_pow_sub_C]
  omega

theorem not_badPoints {N : Nat} {x : Nat → F} {z : F} (hz : z ∉ badPoints N x) :
    z ∉ (Finset.range N).image x ∧ ∀ s < N, x s ≠ z ^ 2 := by
  unfold badPoints at hz
  rw [Finset.mem_union, not_or] at hz
  refine ⟨hz.1, fun s hs he => hz.2 (Finset.mem_biUnion.mpr ⟨s, Finset.mem_range.mpr hs, ?_⟩)⟩
  rw [Multiset.mem_toFinset, mem_roots (X_pow_sub_C_ne_zero (by norm_num) _)]
  simp [he]

/-- The out-of-domain point: when the combination of the constraints of a trace does not vanish, then except for few
points the check fails or the quotients are not close to polynomials. -/
theorem ood_points (D : IsDomain ta d a b h g w) (hh : h ≠ 0) {air : Air F Ch} (hfit : Fits air) (ha : 1 ≤ a)
    (hn : air.traceLength = 2 ^ a) {ch : Ch} {cs : List (MvPolynomial (Nat × Nat) F)}
    (hc : PolynomialConstraints air ch cs) {cols : List (Nat → F)} (hcols : cols.length = air.context.traceColumns)
    {boundary : List (BoundaryConstraint F)} (hb : air.boundaryConstraints ch = .ok boundary)
    (hbc : ∀ c ∈ boundary, c.col < cols.length) {R : Nat} (hR : 2 * R + 2 ^ a + 1 ≤ 2 ^ (a + b))
    {αB βB αT βT : List F}
    (hno : ∀ polys, Decodes (2 ^ (a + b)) (fun s => w ^ s * h) (2 ^ a + 1) R cols polys → ∃ i < 2 ^ a,
      combinedAtRow air g polys boundary (constraintsAt cs polys air.context.transitionOffsets g (g ^ i))
        (αB.zip βB) (αT.zip βT) i ≠ 0) (even odd : Nat → F) :
    AllBut (4 * 2 ^ a + 3 * 2 ^ (a + b)) fun z => ∀ proof : StarkProof F,
      proof.traceOodFrameEvaluations.rowWidth = air.context.traceColumns →
      proof.traceOodFrameEvaluations.data.length = air.context.transitionOffsets.length * air.context.traceColumns →
      step2 air proof d (challengesOf ch αB βB αT βT z 0 0 []) = .ok true →
      ¬ JointNear (2 ^ (a + b)) (fun s => w ^ s * h) (quotients proof z g (fun s => w ^ s * h) cols
        air.context.transitionOffsets.length even odd) (2 ^ a) R := by
  set N := 2 ^ (a + b) with hN
  set x : Nat → F := fun s => w ^ s * h with hxdef
  have hx : Set.InjOn x (Finset.range N : Finset Nat) := domain_injOn D hh
  obtain ⟨bad, h1, h3⟩ := finset_of_bounded {z : F | ∃ proof : StarkProof F,
      proof.traceOodFrameEvaluations.rowWidth = air.context.traceColumns ∧
      proof.traceOodFrameEvaluations.data.length = air.context.transitionOffsets.length * air.context.traceColumns ∧
      step2 air proof d (challengesOf ch αB βB αT βT z 0 0 []) = .ok true ∧
      JointNear N x (quotients proof z g x cols air.context.transitionOffsets.length even odd) (2 ^ a) R}
      (4 * 2 ^ a + 3 * N) (by
    intro S hS
    have hsplit := Finset.card_filter_add_card_filter_not (s := S) (fun z => z ∈ badPoints N x)
    have h1 : (S.filter fun z => z ∈ badPoints N x).card ≤ 3 * N := by
      refine le_trans (Finset.card_le_card fun z hz => ?_) (badPoints_card N x)
      exact (Finset.mem_filter.mp hz).2
    have h2 : (S.filter fun z => z ∉ badPoints N x).card ≤ 4 * 2 ^ a := by
      by_contra hcon
      push Not at hcon
      have hex : ∀ z ∈ S.filter fun z => z ∉ badPoints N x, ∃ polys pe po,
          Decodes N x (2 ^ a + 1) R cols polys ∧ Decodes N x (2 ^ a + 1) R [even, odd] [pe, po] ∧
          OodAccepts air d polys pe po ch (αB.zip βB) (αT.zip βT) z := by
        intro z hz
        obtain ⟨hz1, hz2⟩ := Finset.mem_filter.mp hz
        obtain ⟨hz3, hz4⟩ := not_badPoints hz2
        obtain ⟨proof, e1, e2, e3, e4⟩ := hS z hz1
        obtain ⟨polys, pe, po, p1, p2, p3, p4, p5⟩ := decode_of_near hx (by omega) hfit.offsets_pos
          (fun s hs r => off_coset D hz3 s r) hz4 e4
        have hpl : polys.length = air.context.traceColumns := p1.length.trans hcols
        refine ⟨polys, pe, po, p1, p2, proof, challengesOf ch αB βB αT βT z 0 0 [], rfl, rfl, rfl, rfl, ?_,
          p4.symm, p5.symm, e3⟩
        rw [hfit.offsets, D.tracePrimitiveRoot]
        refine frame_eq (by rw [e1, hpl]) (by rw [e2, hpl]) ?_
        rw [hpl, ← hcols]
        exact p3
      obtain ⟨z0, hz0⟩ := Finset.card_pos.mp (lt_of_le_of_lt (Nat.zero_le _) hcon)
      obtain ⟨polys, pe, po, p1, p2, -⟩ := hex z0 hz0
      obtain ⟨i, hi, hne⟩ := hno polys p1
      refine hne (combined_zero_le D hfit ha hn hc (p1.length.trans hcols) p1.degree hb
        (by rw [p1.length]; exact hbc) (even := pe) (odd := po) (p2.degree pe (by simp)) (p2.degree po (by simp))
        hcon (fun z hz => ?_) hi)
      obtain ⟨polys', pe', po', q1, q2, q3⟩ := hex z hz
      obtain rfl := decodes_unique hx (by omega) (by omega) p1 q1
      have hpp := decodes_unique hx (by omega) (by omega) p2 q2
      obtain ⟨hpe, hpp⟩ := List.cons.inj hpp
      obtain ⟨hpo, -⟩ := List.cons.inj hpp
      rw [hpe, hpo]
      exact q3
    omega)
  refine ⟨bad, h1, fun z hz proof e1 e2 e3 e4 => hz (h3 z ⟨proof, e1, e2, e3, e4⟩)⟩

end Verif.Proximity
