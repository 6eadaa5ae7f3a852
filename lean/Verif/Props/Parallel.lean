import Verif.Lemmas.Parallel
import Verif.Props.Stark

/-!
# C57: the results of the parallel build
-/

namespace Verif.Props
open Polynomial
variable {F T Ch : Type} [Field F] [DecidableEq F]

/-- **C57**, for one parallel map: whatever the order in which the tasks begin and end, when all have ended the
collected result is the one of the sequential map, a panic included. -/
theorem C57_parallel_map {α β : Type} (f : α → Outcome Empty β) (xs : List α) (s : List (Task β))
    (h : Relation.ReflTransGen (PoolStep f xs) (List.replicate xs.length .waiting) s) (hf : PoolFinished s) :
    poolCollect s = mapOutcome f xs := (PoolInv.reached h).collect hf

/-- **C57**: a parallel map does not get stuck before all its tasks have ended. -/
theorem C57_no_deadlock {α β : Type} (f : α → Outcome Empty β) (xs : List α) (s : List (Task β))
    (h : Relation.ReflTransGen (PoolStep f xs) (List.replicate xs.length .waiting) s) (hf : ¬ PoolFinished s) :
    ∃ s', PoolStep f xs s s' := pool_progress (PoolInv.reached h).length hf

/-- **C57**: a parallel map takes at most two steps for each element. -/
theorem C57_ends {α β : Type} (f : α → Outcome Empty β) (xs : List α) (n : Nat) (run : Nat → List (Task β))
    (h0 : run 0 = List.replicate xs.length .waiting) (h : ∀ i < n, PoolStep f xs (run i) (run (i + 1))) :
    n ≤ 2 * xs.length := by
  have key : ∀ k ≤ n, ((run k).map Task.left).sum + k ≤ 2 * xs.length := by
    intro k hk
    induction k with
    | zero =>
      rw [h0]
      simp [Task.left, Nat.mul_comm]
    | succ k ih =>
      have h1 := poolStep_left (h k (by omega))
      have h2 := ih (by omega)
      omega
  have := key n le_rfl
  omega

/-- **C57**: the low-degree extensions of the trace do not depend on the schedule, and are those of the
sequential build. -/
theorem C57_extensions (S : Schedule) (k : Nat) (env : Env F T) (polys : List F[X]) (d : Domain F) :
    computeLdeTraceEvaluationsPar S k env polys d = computeLdeTraceEvaluations env polys d := parMap_eq _ _ _ _

/-- **C57**: the evaluations of the constraints do not depend on the schedule, and are those of the sequential
build. (The domain of an AIR whose blowup factor is zero has no points.) -/
theorem C57_evaluations (S : Schedule) (ta : TwoAdic F) (air : Air F Ch) (d : Domain F)
    (hd : Domain.new ta air = .ok d) (boundary : List (BoundaryConstraint F)) (lde : TraceTable F)
    (tc bc : List (F × F)) (ch : Ch) :
    evaluateConstraintsPar S ta air boundary lde d tc bc ch
      = evaluateConstraints ta air boundary lde d tc bc ch :=
  evaluateConstraintsPar_eq S ta air boundary lde d tc bc ch (domain_blowup_zero hd)

/-- **C57**: for every schedule the parallel prover returns the proof of the sequential prover. -/
theorem C57_proof {PI : Type} (S : Schedule) (env : Env F T) (new : AirNew F Ch PI) (trace : TraceTable F)
    (pi : PI) (options : ProofOptions) :
    provePar S env new trace pi options = prove env new trace pi options := provePar_eq S env new trace pi options

/-- There are schedules: every map can be run to its end. -/
example : Nonempty Schedule :=
  ⟨⟨fun _ {_ _} f xs => (pool_ends f xs (List.replicate xs.length .waiting) (by simp)).choose,
    fun _ {_ _} f xs => (pool_ends f xs (List.replicate xs.length .waiting) (by simp)).choose_spec.1,
    fun _ {_ _} f xs => (pool_ends f xs (List.replicate xs.length .waiting) (by simp)).choose_spec.2⟩⟩

/-- The pool can run two tasks at the same time and end the second before the first. -/
example (f : Nat → Outcome Empty Nat) (hf : ∀ n, f n = .ok (n + 1)) :
    Relation.ReflTransGen (PoolStep f [5, 7]) [.waiting, .waiting] [.done 6, .done 8] :=
  .head (.start 0 rfl) (.head (.start 1 rfl) (.head (.finish 1 7 8 rfl rfl (hf 7))
    (.head (.finish 0 5 6 rfl rfl (hf 5)) .refl)))

/-- A proof made by the parallel prover, under every schedule, that is accepted. -/
example (S : Schedule) : ∃ proof, provePar S Examples.env17 ExampleAirs.fibonacci2 (TraceTable.ofRows rows17 2) ⟨1, 1⟩
    (options17 3) = .ok proof ∧ verify Examples.env17 ExampleAirs.fibonacci2 proof ⟨1, 1⟩ (options17 3) = .ok true := by
  obtain ⟨proof, h1, h2⟩ := honest17
  exact ⟨proof, (C57_proof S _ _ _ _ _).trans h1, h2⟩

/-- After a panic in one task another can be abandoned. -/
example (f : Nat → Outcome Empty Nat) (hf : f 7 = .panic) :
    Relation.ReflTransGen (PoolStep f [5, 7]) [.waiting, .waiting] [.abandoned, .failed] :=
  .head (.start 1 rfl) (.head (.fail 1 7 rfl rfl hf) (.head (.abandon 0 1 rfl rfl) .refl))

end Verif.Props
