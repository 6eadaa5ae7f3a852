import Verif.Model.Release
import Verif.Lemmas.NoPanic

/-!
# The release and debug builds of the verifier agree

`Agree p x y` says that `x` and `y` are the same outcome, or that `x` is a panic although `p` fails.
-/

namespace Verif
noncomputable section
open Polynomial
variable {F T Ch : Type} [Field F] [DecidableEq F]

def Agree {α : Type} (p : Prop) (x y : Outcome Empty α) : Prop := x = y ∨ (x = .panic ∧ ¬ p)

namespace Agree
variable {α β σ : Type} {p : Prop}

theorem rfl' (x : Outcome Empty α) : Agree p x x := .inl rfl

theorem bind {x y : Outcome Empty α} {f g : α → Outcome Empty β} (h : Agree p x y)
    (hf : ∀ a, x = .ok a → Agree p (f a) (g a)) : Agree p (x >>= f) (y >>= g) := by
  rcases h with h | ⟨h, hp⟩
  · subst h
    cases x with
    | ok a => exact hf a rfl
    | err e => exact e.elim
    | panic => exact .inl rfl
  · subst h
    exact .inr ⟨rfl, hp⟩

theorem bind' (x : Outcome Empty α) {f g : α → Outcome Empty β} (hf : ∀ a, x = .ok a → Agree p (f a) (g a)) :
    Agree p (x >>= f) (x >>= g) := bind (rfl' x) hf

/-- A computation that the other build does not have. -/
theorem skip {x : Outcome Empty α} {f : α → Outcome Empty β} {a : α} {y : Outcome Empty β}
    (h : Agree p x (.ok a)) (hf : x = .ok a → Agree p (f a) y) : Agree p (x >>= f) y := by
  rcases h with h | ⟨h, hp⟩
  · rw [h] at hf ⊢
    exact hf rfl
  · rw [h]
    exact .inr ⟨rfl, hp⟩

theorem mapOutcome {f : α → Outcome Empty β} {g : α → β} {l : List α} (h : ∀ a ∈ l, Agree p (f a) (.ok (g a))) :
    Agree p (mapOutcome f l) (.ok (l.map g)) := by
  induction l with
  | nil => exact .inl rfl
  | cons a l ih =>
    refine skip (h a (List.mem_cons_self)) fun _ => ?_
    exact skip (ih fun b hb => h b (List.mem_cons_of_mem _ hb)) fun _ => .inl rfl

theorem foldlM {f g : σ → α → Outcome Empty σ} {l : List α} (h : ∀ s, ∀ a ∈ l, Agree p (f s a) (g s a)) (s : σ) :
    Agree p (l.foldlM f s) (l.foldlM g s) := by
  induction l generalizing s with
  | nil => exact .inl rfl
  | cons a l ih =>
    simp only [List.foldlM_cons]
    exact bind (h s a List.mem_cons_self) fun s _ => ih (fun s b hb => h s b (List.mem_cons_of_mem _ hb)) s

end Agree

theorem wrappingSub_of_le {a b : Nat} (ha : a < 2 ^ 64) (h : b ≤ a) : wrappingSub a b = a - b := by
  rw [wrappingSub, show a + 2 ^ 64 - b = (a - b) + 2 ^ 64 from by omega, Nat.add_mod_right, Nat.mod_eq_of_lt (by omega)]

theorem agree_sub {p : Prop} {a b : Nat} (ha : a < 2 ^ 64) (h : p → b ≤ a) :
    Agree p (checkedSub a b) (.ok (wrappingSub a b)) := by
  unfold checkedSub
  split
  · rename_i hle
    rw [wrappingSub_of_le ha hle]
    exact .inl rfl
  · rename_i hle
    exact .inr ⟨rfl, fun hp => hle (h hp)⟩

theorem layerLength_of_le {order k : Nat} (ho : order < 64) (h : k ≤ order) :
    layerLength order k = 2 ^ (order - k) := by
  unfold layerLength
  congr 1
  omega

/-- What makes the subtractions of the verifier safe. -/
structure Sizes (air : Air F Ch) : Prop where
  bound : air.compositionPolyDegreeBound < 2 ^ 64
  columns : air.context.traceColumns < 2 ^ 64
  degrees : ∀ d ∈ air.context.transitionDegrees, d < 2 ^ 64

structure NoUnderflow (air : Air F Ch) : Prop where
  length : air.traceLength ≤ air.compositionPolyDegreeBound
  degree : ∀ d ∈ air.context.transitionDegrees, 1 ≤ d
  max : ∀ m, air.context.transitionDegrees.max? = some m → ∀ k < m,
    air.traceLength * k ≤ air.compositionPolyDegreeBound
  columns : air.numberAuxiliaryRapColumns ≤ air.context.traceColumns

variable {p : Prop} {air : Air F Ch}

omit [DecidableEq F] in
theorem oodTransition_agree (hs : Sizes air) (hu : p → NoUnderflow air) (evaluations : List F) (denominator : F)
    (exemption degreeAdjustments : List F) (coeffs : List (F × F)) :
    Agree p (oodTransition air evaluations denominator exemption degreeAdjustments coeffs)
      (oodTransitionRelease air evaluations denominator exemption degreeAdjustments coeffs) := by
  refine Agree.foldlM (fun s x hx => ?_) 0
  have hd : x.1.1.2 ∈ air.context.transitionDegrees :=
    (List.of_mem_zip (List.of_mem_zip (List.of_mem_zip hx).1).1).2
  dsimp only
  split
  · exact Agree.bind' _ fun e _ =>
      Agree.skip (agree_sub (hs.degrees _ hd) fun hp => (hu hp).degree _ hd) fun _ => .inl rfl
  · exact Agree.bind' _ fun e _ =>
      Agree.skip (agree_sub (hs.degrees _ hd) fun hp => (hu hp).degree _ hd) fun _ => .inl rfl

theorem step2_agree {boundary : Ch → Outcome Empty (List (BoundaryConstraint F))} (hs : Sizes air)
    (hu : p → NoUnderflow air) (hb : ∀ ch, Agree p (air.boundaryConstraints ch) (boundary ch)) (proof : StarkProof F)
    (domain : Domain F) (c : Challenges F Ch) :
    Agree p (step2 air proof domain c) (step2Release { air with boundaryConstraints := boundary } proof domain c) := by
  unfold step2 step2Release
  refine Agree.bind (hb _) fun bcs _ => ?_
  refine Agree.skip (agree_sub hs.bound fun hp => (hu hp).length) fun _ => ?_
  refine Agree.bind' _ fun _ _ => Agree.bind' _ fun _ _ => Agree.bind' _ fun _ _ => Agree.bind' _ fun _ _ =>
    Agree.bind' _ fun _ _ => Agree.bind' _ fun m hm => ?_
  refine Agree.skip (a := (List.range m).map fun k =>
    c.z ^ wrappingSub air.compositionPolyDegreeBound (air.traceLength * k)) (Agree.mapOutcome fun k hk => ?_) fun _ => ?_
  · refine Agree.skip (agree_sub hs.bound fun hp => (hu hp).max m ?_ k (List.mem_range.mp hk)) fun _ => .inl rfl
    revert hm
    show Outcome.ofOptionUnwrap air.context.transitionDegrees.max? = .ok m → _
    cases air.context.transitionDegrees.max? with
    | none => intro h; cases h
    | some m' => intro h; cases h; rfl
  · exact Agree.bind (oodTransition_agree hs hu _ _ _ _ _) fun _ _ => .inl rfl

theorem verifyLayer_agree {env : Env F T} {proof : StarkProof F} {zetas : List F} {iota : Nat}
    {d : FriDecommitment F} {domain : Domain F} {twoInv : F} (ho : domain.ldeRootOrder < 64)
    (hlen : d.layersEvaluations.length < 2 ^ 64) (acc : Bool × F)
    {item : LayerItem F} (hk : p → item.1.1.1.1.1.1 ≤ domain.ldeRootOrder) (hne : d.layersEvaluations ≠ []) :
    Agree p (verifyLayer env proof zetas iota d domain twoInv acc item)
      (verifyLayerRelease env proof zetas iota d domain twoInv acc item) := by
  unfold verifyLayer verifyLayerRelease
  dsimp only
  by_cases hle : item.1.1.1.1.1.1 ≤ domain.ldeRootOrder
  · rw [layerLength_of_le ho hle]
    refine Agree.skip (.inl (checkedSub_ok.mpr ⟨hle, rfl⟩)) fun _ => ?_
    refine Agree.bind' _ fun beta _ => ?_
    exact Agree.skip (agree_sub hlen fun _ => List.length_pos_iff.mpr hne) fun _ => .inl rfl
  · refine .inr ⟨?_, fun hp => hle (hk hp)⟩
    rw [checkedSub, if_neg hle]
    rfl

theorem verifyQuery_agree {env : Env F T} {proof : StarkProof F} {zetas : List F} {iota : Nat}
    {d : FriDecommitment F} {domain : Domain F} {pointInv twoInv : F} (ho : domain.ldeRootOrder < 64)
    (hlen : d.layersEvaluations.length < 2 ^ 64)
    (hk : p → proof.friLayersMerkleRoots.length ≤ domain.ldeRootOrder + 1) :
    Agree p (verifyQuery env proof zetas iota d domain pointInv twoInv)
      (verifyQueryRelease env proof zetas iota d domain pointInv twoInv) := by
  unfold verifyQuery verifyQueryRelease
  refine Agree.bind' _ fun v hv => Agree.bind (Agree.foldlM (fun acc item hi => ?_) _) fun _ _ => .inl rfl
  refine verifyLayer_agree ho hlen acc (fun hp => ?_) (by rintro h; rw [h] at hv; cases hv)
  have h := (List.of_mem_zip (List.of_mem_zip (List.of_mem_zip (List.of_mem_zip (List.of_mem_zip
    (List.of_mem_zip hi).1).1).1).1).1).1
  exact Nat.le_of_lt_succ (lt_of_lt_of_le (List.mem_range.mp h) (hk hp))

theorem step3_agree {env : Env F T} {proof : StarkProof F} {domain : Domain F} {c : Challenges F Ch}
    (ho : domain.ldeRootOrder < 64) (hlen : ∀ d ∈ proof.queryList, d.layersEvaluations.length < 2 ^ 64)
    (hk : p → proof.friLayersMerkleRoots.length ≤ domain.ldeRootOrder + 1) :
    Agree p (step3 env proof domain c) (step3Release env proof domain c) := by
  unfold step3 step3Release
  refine Agree.bind' _ fun _ _ => Agree.bind' _ fun _ _ => Agree.bind' _ fun _ _ => Agree.foldlM (fun s x hx => ?_) _
  exact Agree.bind (verifyQuery_agree ho (hlen _ (List.of_mem_zip (List.of_mem_zip hx).1).1) hk) fun _ _ => .inl rfl

theorem step4_agree {env : Env F T} {proof : StarkProof F} {domain : Domain F} {c : Challenges F Ch}
    (boundary : Ch → Outcome Empty (List (BoundaryConstraint F))) (hs : Sizes air) (hu : p → NoUnderflow air) :
    Agree p (step4 env air proof domain c)
      (step4Release env { air with boundaryConstraints := boundary } proof domain c) := by
  unfold step4 step4Release
  refine Agree.bind' _ fun _ _ => Agree.bind' _ fun _ _ => Agree.bind' _ fun _ _ => Agree.foldlM (fun s x hx => ?_) _
  unfold verifyDeepAt verifyDeepAtRelease
  exact Agree.skip (agree_sub hs.columns fun hp => (hu hp).columns) fun _ => .inl rfl

theorem step1_agree {env : Env F T} {proof : StarkProof F} {domain : Domain F}
    {boundary : Ch → Outcome Empty (List (BoundaryConstraint F))}
    (hb : ∀ ch, Agree p (air.boundaryConstraints ch) (boundary ch)) (t : T) :
    Agree p (step1 env air proof domain t)
      (step1 env { air with boundaryConstraints := boundary } proof domain t) := by
  unfold step1
  exact Agree.bind' _ fun _ _ => Agree.bind (hb _) fun _ _ => .inl rfl

/-- The verifier of the two builds, for the same AIR up to its boundary constraints. -/
theorem verify_agree {PI : Type} {env : Env F T} {new new' : AirNew F Ch PI} {proof : StarkProof F} {pi : PI}
    {options : ProofOptions}
    {boundary : Ch → Outcome Empty (List (BoundaryConstraint F))}
    (h : new proof.traceLength pi options = .ok air)
    (h' : new' proof.traceLength pi options = .ok { air with boundaryConstraints := boundary })
    (hs : Sizes air) (hu : p → NoUnderflow air)
    (hb : ∀ ch, Agree p (air.boundaryConstraints ch) (boundary ch))
    (ho : ∀ d, Domain.new env.ta air = .ok d → d.ldeRootOrder < 64 ∧
      (p → proof.friLayersMerkleRoots.length ≤ d.ldeRootOrder + 1))
    (hlen : ∀ d ∈ proof.queryList, d.layersEvaluations.length < 2 ^ 64) :
    Agree p (verify env new proof pi options) (verifyRelease env new' proof pi options) := by
  unfold verify verifyRelease
  split
  · exact .inl rfl
  rw [h, h', Outcome.bind_ok, Outcome.bind_ok]
  refine Agree.bind' (Domain.new env.ta air) fun d hd => Agree.bind (step1_agree hb _) fun c _ => ?_
  obtain ⟨ho, hk⟩ := ho d hd
  dsimp only
  split
  · exact .inl rfl
  refine Agree.bind (step2_agree hs hu hb _ _ _) fun _ _ => ?_
  split
  · exact .inl rfl
  refine Agree.bind (step3_agree ho hlen hk) fun _ _ => ?_
  split
  · exact .inl rfl
  refine Agree.bind (step4_agree boundary hs hu) fun _ _ => ?_
  split <;> exact .inl rfl

end
end Verif
