import Verif.Lemmas.FriSound

/-!
# Soundness of random combinations

Words that are not jointly close to polynomials have no combination close to a polynomial, except for few
coefficients.
-/

namespace Verif.Proximity
open Polynomial Finset Spec
variable {F : Type} [Field F] [DecidableEq F]

/-- The indices at which the words have the values of the polynomials. -/
noncomputable def agreeing (N : Nat) (x : Nat → F) (words : List (Nat → F)) (ps : List F[X]) : Finset Nat :=
  (Finset.range N).filter fun s => List.Forall₂ (fun f p => f s = eval (x s) p) words ps

/-- The words agree with polynomials of degree below `k` at all but `R` indices, the same for all the words. -/
def JointNear (N : Nat) (x : Nat → F) (words : List (Nat → F)) (k R : Nat) : Prop :=
  ∃ ps : List F[X], (∀ p ∈ ps, p.degree < k) ∧ N ≤ (agreeing N x words ps).card + R

theorem mem_agreeing {N : Nat} {x : Nat → F} {words : List (Nat → F)} {ps : List F[X]} {s : Nat} :
    s ∈ agreeing N x words ps ↔ s < N ∧ List.Forall₂ (fun f p => f s = eval (x s) p) words ps := by
  unfold agreeing
  rw [Finset.mem_filter, Finset.mem_range]

theorem agreeing_subset {N : Nat} {x : Nat → F} {words : List (Nat → F)} {ps : List F[X]} :
    agreeing N x words ps ⊆ Finset.range N := Finset.filter_subset _ _

/-- Polynomials that agree with the same words at most indices are the same. -/
theorem agreeing_unique {N : Nat} {x : Nat → F} (hx : Set.InjOn x (Finset.range N : Finset Nat))
    {words : List (Nat → F)} {k R : Nat} (hR : 2 * R + k ≤ N) (hR1 : R < N) {ps qs : List F[X]}
    (hp : ∀ p ∈ ps, p.degree < k) (hq : ∀ p ∈ qs, p.degree < k)
    (h1 : N ≤ (agreeing N x words ps).card + R) (h2 : N ≤ (agreeing N x words qs).card + R) : ps = qs := by
  have hne : ∀ ps : List F[X], N ≤ (agreeing N x words ps).card + R → words.length = ps.length := by
    intro ps h
    have : 0 < (agreeing N x words ps).card := by omega
    obtain ⟨s, hs⟩ := Finset.card_pos.mp this
    exact (mem_agreeing.mp hs).2.length_eq
  have hl1 := hne ps h1
  have hl2 := hne qs h2
  set G := agreeing N x words ps ∩ agreeing N x words qs with hG
  have hGc : k ≤ G.card := by
    have e1 := Finset.card_union_add_card_inter (agreeing N x words ps) (agreeing N x words qs)
    have e2 : (agreeing N x words ps ∪ agreeing N x words qs).card ≤ N := by
      have : agreeing N x words ps ∪ agreeing N x words qs ⊆ Finset.range N := by
        exact Finset.union_subset agreeing_subset agreeing_subset
      simpa using Finset.card_le_card this
    rw [← hG] at e1
    omega
  refine List.ext_getElem (by omega) fun i hi1 hi2 => ?_
  have hz := zero_of_agree (k := k) (cap := 1) G x (fun z => by
    rw [Finset.card_le_one]
    intro s hs t ht
    obtain ⟨s1, s2⟩ := Finset.mem_filter.mp hs
    obtain ⟨t1, t2⟩ := Finset.mem_filter.mp ht
    refine hx ?_ ?_ (s2.trans t2.symm)
    · exact Finset.mem_coe.mpr (agreeing_subset (Finset.mem_inter.mp s1).1)
    · exact Finset.mem_coe.mpr (agreeing_subset (Finset.mem_inter.mp t1).1)) (by omega) one_pos
    (p := ps[i] - qs[i])
    (lt_of_le_of_lt (degree_sub_le _ _) (max_lt (hp _ (List.getElem_mem _)) (hq _ (List.getElem_mem _)))) (by
      intro s hs
      obtain ⟨s1, s2⟩ := Finset.mem_inter.mp hs
      have e1 := (List.forall₂_iff_get.mp (mem_agreeing.mp s1).2).2 i (by omega) (by omega)
      have e2 := (List.forall₂_iff_get.mp (mem_agreeing.mp s2).2).2 i (by omega) (by omega)
      simp only [List.get_eq_getElem] at e1 e2
      rw [eval_sub, ← e1, ← e2, sub_self])
  exact sub_eq_zero.mp hz

/-- One draw: replacing two words by a random combination. -/
theorem combine_step {N : Nat} {x : Nat → F} (hx : Set.InjOn x (Finset.range N : Finset Nat)) {u v : Nat → F}
    {rest : List (Nat → F)} {k R m : Nat} (hk : 0 < k) (hR : 2 * R + k ≤ N)
    (hgap : ProximityGap N k R m)
    (h : ¬ JointNear N x (u :: v :: rest) k R) :
    AllBut m fun ζ => ¬ JointNear N x ((fun s => u s + ζ * v s) :: rest) k R := by
  obtain ⟨bad, h1, h3⟩ := finset_of_bounded {ζ : F | JointNear N x ((fun s => u s + ζ * v s) :: rest) k R} m (by
    intro S hS
    by_contra hlt
    push Not at hlt
    apply h
    have hex : ∀ ζ ∈ S, ∃ c : F[X], ∃ ps : List F[X], c.degree < k ∧ (∀ p ∈ ps, p.degree < k) ∧
        N ≤ ((agreeing N x rest ps).filter fun s => u s + ζ * v s = c.eval (x s)).card + R := by
      intro ζ hζ
      obtain ⟨ps, hps, hN⟩ := hS ζ hζ
      cases ps with
      | nil =>
        have : agreeing N x ((fun s => u s + ζ * v s) :: rest) [] = ∅ := by
          refine Finset.eq_empty_of_forall_notMem fun s hs => ?_
          cases (mem_agreeing.mp hs).2
        rw [this, Finset.card_empty] at hN
        omega
      | cons c ps =>
        refine ⟨c, ps, hps c (by simp), fun p hp => hps p (List.mem_cons_of_mem _ hp), hN.trans ?_⟩
        refine Nat.add_le_add_right (Finset.card_le_card fun s hs => ?_) R
        obtain ⟨hs1, hs2⟩ := mem_agreeing.mp hs
        rw [List.forall₂_cons] at hs2
        exact Finset.mem_filter.mpr ⟨mem_agreeing.mpr ⟨hs1, hs2.2⟩, hs2.1⟩
    choose! c ps hc hps hN using hex
    obtain ⟨ζ0, hζ0⟩ := Finset.card_pos.mp (by omega : 0 < S.card)
    have hsame : ∀ ζ ∈ S, ps ζ = ps ζ0 := by
      intro ζ hζ
      refine agreeing_unique (words := rest) hx (by omega : 2 * R + k ≤ N) (by omega) (hps ζ hζ) (hps ζ0 hζ0)
        ((hN ζ hζ).trans ?_) ((hN ζ0 hζ0).trans ?_)
      · exact Nat.add_le_add_right (Finset.card_le_card (Finset.filter_subset _ _)) R
      · exact Nat.add_le_add_right (Finset.card_le_card (Finset.filter_subset _ _)) R
    obtain ⟨P, Q, hP, hQ, hPQ⟩ := line (Finset.range N) (agreeing N x rest (ps ζ0)) agreeing_subset
      u v x (k := k) (cap := 1) (R := R) (m := m) one_pos (fun z => by
        rw [Finset.card_le_one]
        intro s hs t ht
        obtain ⟨s1, s2⟩ := Finset.mem_filter.mp hs
        obtain ⟨t1, t2⟩ := Finset.mem_filter.mp ht
        exact hx (Finset.mem_coe.mpr s1) (Finset.mem_coe.mpr t1) (s2.trans t2.symm))
      (by rw [Finset.card_range, one_mul]; exact hgap) S hlt (by
        intro ζ hζ
        refine ⟨c ζ, hc ζ hζ, ?_⟩
        have := hN ζ hζ
        rw [hsame ζ hζ] at this
        rwa [Finset.card_range])
    refine ⟨P :: Q :: ps ζ0, ?_, ?_⟩
    · intro p hp
      rcases List.mem_cons.mp hp with rfl | hp
      · exact hP
      rcases List.mem_cons.mp hp with rfl | hp
      · exact hQ
      exact hps ζ0 hζ0 p hp
    · rw [Finset.card_range] at hPQ
      refine hPQ.trans (Nat.add_le_add_right (Finset.card_le_card fun s hs => ?_) R)
      obtain ⟨hs1, hs2, hs3⟩ := Finset.mem_filter.mp hs
      obtain ⟨hs4, hs5⟩ := mem_agreeing.mp hs1
      exact mem_agreeing.mpr ⟨hs4, List.Forall₂.cons hs2 (List.Forall₂.cons hs3 hs5)⟩)
  exact ⟨bad, h1, fun ζ hζ hj => hζ (h3 ζ hj)⟩

/-- The word `u` with the words added with the coefficients. -/
def combination (u : Nat → F) (words : List (Nat → F)) (γ : List F) (s : Nat) : F :=
  u s + (List.zipWith (fun c f => c * f s) γ words).sum

/-- All draws: the random combination of words that are not jointly close to polynomials. -/
theorem combine_draws {N : Nat} {x : Nat → F} (hx : Set.InjOn x (Finset.range N : Finset Nat)) {k R m : Nat}
    (hk : 0 < k) (hR : 2 * R + k ≤ N) (hgap : ProximityGap N k R m) (words : List (Nat → F)) (u : Nat → F)
    (h : ¬ JointNear N x (u :: words) k R) :
    AllButDraws m words.length fun γ => ¬ NearPoly N x (combination u words γ) k R := by
  induction words generalizing u with
  | nil =>
    rintro ⟨p, hp, hc⟩
    apply h
    refine ⟨[p], by simpa using hp, ?_⟩
    have hsplit := Finset.card_filter_add_card_filter_not (s := Finset.range N) (fun s => u s = p.eval (x s))
    rw [Finset.card_range] at hsplit
    have hle : ((Finset.range N).filter fun s => u s = p.eval (x s)).card ≤ (agreeing N x [u] [p]).card := by
      refine Finset.card_le_card fun s hs => ?_
      obtain ⟨h1, h2⟩ := Finset.mem_filter.mp hs
      exact mem_agreeing.mpr ⟨Finset.mem_range.mp h1, List.Forall₂.cons h2 List.Forall₂.nil⟩
    simp only [combination, List.zipWith_nil_left, List.sum_nil, add_zero, ne_eq] at hc
    omega
  | cons v words ih =>
    refine AllBut.mono le_rfl (combine_step hx hk hR hgap h) fun ζ hζ => ?_
    refine AllButDraws.mono le_rfl _ (ih _ hζ) fun l _ hl => ?_
    have : combination u (v :: words) (ζ :: l) = combination (fun s => u s + ζ * v s) words l := by
      funext s
      simp [combination, add_assoc]
    show ¬ NearPoly N x (combination u (v :: words) (ζ :: l)) k R
    rw [this]
    exact hl

theorem jointNear_zero {N : Nat} {x : Nat → F} {words : List (Nat → F)} {k R : Nat} (hR : R < N)
    (h : JointNear N x ((fun _ => 0) :: words) k R) : JointNear N x words k R := by
  obtain ⟨ps, hps, hN⟩ := h
  have : 0 < (agreeing N x ((fun _ => 0) :: words) ps).card := by omega
  obtain ⟨s, hs⟩ := Finset.card_pos.mp this
  cases ps with
  | nil => cases (mem_agreeing.mp hs).2
  | cons p ps =>
    refine ⟨ps, fun q hq => hps q (List.mem_cons_of_mem _ hq), hN.trans ?_⟩
    refine Nat.add_le_add_right (Finset.card_le_card fun s hs => ?_) R
    obtain ⟨h1, h2⟩ := mem_agreeing.mp hs
    rw [List.forall₂_cons] at h2
    exact mem_agreeing.mpr ⟨h1, h2.2⟩

end Verif.Proximity
