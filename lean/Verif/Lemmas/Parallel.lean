import Verif.Model.Parallel
import Verif.Lemmas.Evaluator

/-!
# Lemmas about the thread pool
-/

namespace Verif
open Polynomial
variable {F T Ch : Type} [Field F] [DecidableEq F]

theorem Outcome.ok_or_panic {α : Type} (x : Outcome Empty α) : (∃ a, x = .ok a) ∨ x = .panic := by
  cases x with
  | ok a => exact .inl ⟨a, rfl⟩
  | err e => cases e
  | panic => exact .inr rfl

theorem mapOutcome_congr_getElem {ε α β γ : Type} {f : α → Outcome ε γ} {g : β → Outcome ε γ} {l : List α}
    {m : List β} (hl : l.length = m.length)
    (h : ∀ i (h1 : i < l.length) (h2 : i < m.length), f l[i] = g m[i]) :
    mapOutcome f l = mapOutcome g m := by
  induction l generalizing m with
  | nil => cases m with
    | nil => rfl
    | cons b m => simp at hl
  | cons a l ih => cases m with
    | nil => simp at hl
    | cons b m =>
      have h0 := h 0 (by simp) (by simp)
      simp only [List.getElem_cons_zero] at h0
      rw [mapOutcome, mapOutcome, h0, ih (by simpa using hl) fun i h1 h2 => by
        have h3 := h (i + 1) (by simpa using h1) (by simpa using h2)
        simp only [List.getElem_cons_succ] at h3
        exact h3]

theorem mapOutcome_panic {α β : Type} {f : α → Outcome Empty β} {l : List α} {i : Nat} {a : α}
    (ha : l[i]? = some a) (h : f a = .panic) : mapOutcome f l = .panic := by
  rcases (mapOutcome f l).ok_or_panic with ⟨bs, hb⟩ | hp
  · obtain ⟨b, -, hb⟩ := mapOutcome_getElem? hb ha
    rw [h] at hb
    cases hb
  · exact hp

/-- What holds in every state of the pool. -/
structure PoolInv {α β : Type} (f : α → Outcome Empty β) (xs : List α) (s : List (Task β)) : Prop where
  length : s.length = xs.length
  done : ∀ (i : Nat) b, s[i]? = some (.done b) → ∃ x, xs[i]? = some x ∧ f x = .ok b
  failed : ∀ i : Nat, s[i]? = some .failed → ∃ x, xs[i]? = some x ∧ f x = .panic
  abandoned : ∀ i : Nat, s[i]? = some .abandoned → ∃ j : Nat, s[j]? = some .failed

theorem getElem?_set_cases {α : Type} {s : List α} {i j : Nat} {a b : α} (h : (s.set i a)[j]? = some b) :
    (i = j ∧ a = b) ∨ (i ≠ j ∧ s[j]? = some b) := by
  by_cases hij : i = j
  · subst hij
    rw [List.getElem?_set_self'] at h
    cases hs : s[i]? with
    | none => rw [hs] at h; cases h
    | some c => rw [hs] at h; exact .inl ⟨rfl, Option.some.inj h⟩
  · rw [List.getElem?_set_ne hij] at h
    exact .inr ⟨hij, h⟩

theorem PoolInv.failed_set {β : Type} {s : List (Task β)} {i j : Nat} {t t' : Task β} (hi : s[i]? = some t')
    (ht : t' ≠ .failed) (hj : s[j]? = some .failed) : (s.set i t)[j]? = some .failed := by
  rw [List.getElem?_set_ne, hj]
  rintro rfl
  rw [hi] at hj
  exact ht (Option.some.inj hj)

theorem PoolInv.step {α β : Type} {f : α → Outcome Empty β} {xs : List α} {s s' : List (Task β)}
    (I : PoolInv f xs s) (h : PoolStep f xs s s') : PoolInv f xs s' := by
  have hset : ∀ (i : Nat) (t : Task β), (s.set i t).length = xs.length := fun i t => by
    rw [List.length_set]; exact I.length
  cases h with
  | start i hi =>
    refine ⟨hset _ _, fun j b hj => ?_, fun j hj => ?_, fun j hj => ?_⟩
    · rcases getElem?_set_cases hj with ⟨-, h⟩ | ⟨-, h⟩
      · cases h
      · exact I.done j b h
    · rcases getElem?_set_cases hj with ⟨-, h⟩ | ⟨-, h⟩
      · cases h
      · exact I.failed j h
    · rcases getElem?_set_cases hj with ⟨-, h⟩ | ⟨-, h⟩
      · cases h
      · obtain ⟨k, hk⟩ := I.abandoned j h
        exact ⟨k, failed_set hi (by simp) hk⟩
  | finish i x b hi hx hf =>
    refine ⟨hset _ _, fun j b' hj => ?_, fun j hj => ?_, fun j hj => ?_⟩
    · rcases getElem?_set_cases hj with ⟨rfl, h⟩ | ⟨-, h⟩
      · cases h
        exact ⟨x, hx, hf⟩
      · exact I.done j b' h
    · rcases getElem?_set_cases hj with ⟨-, h⟩ | ⟨-, h⟩
      · cases h
      · exact I.failed j h
    · rcases getElem?_set_cases hj with ⟨-, h⟩ | ⟨-, h⟩
      · cases h
      · obtain ⟨k, hk⟩ := I.abandoned j h
        exact ⟨k, failed_set hi (by simp) hk⟩
  | fail i x hi hx hf =>
    refine ⟨hset _ _, fun j b' hj => ?_, fun j hj => ?_, fun j hj => ?_⟩
    · rcases getElem?_set_cases hj with ⟨-, h⟩ | ⟨-, h⟩
      · cases h
      · exact I.done j b' h
    · rcases getElem?_set_cases hj with ⟨rfl, h⟩ | ⟨-, h⟩
      · exact ⟨x, hx, hf⟩
      · exact I.failed j h
    · rcases getElem?_set_cases hj with ⟨-, h⟩ | ⟨-, h⟩
      · cases h
      · obtain ⟨k, hk⟩ := I.abandoned j h
        exact ⟨k, failed_set hi (by simp) hk⟩
  | abandon i j hi hj =>
    refine ⟨hset _ _, fun k b' hk => ?_, fun k hk => ?_, fun k hk => ⟨j, failed_set hi (by simp) hj⟩⟩
    · rcases getElem?_set_cases hk with ⟨-, h⟩ | ⟨-, h⟩
      · cases h
      · exact I.done k b' h
    · rcases getElem?_set_cases hk with ⟨-, h⟩ | ⟨-, h⟩
      · cases h
      · exact I.failed k h

theorem PoolInv.init {α β : Type} (f : α → Outcome Empty β) (xs : List α) :
    PoolInv f xs (List.replicate xs.length .waiting) := by
  refine ⟨by simp, fun i b h => ?_, fun i h => ?_, fun i h => ?_⟩ <;>
  · have := List.eq_of_mem_replicate (List.mem_of_getElem? h)
    cases this

theorem PoolInv.reached {α β : Type} {f : α → Outcome Empty β} {xs : List α} {s : List (Task β)}
    (h : Relation.ReflTransGen (PoolStep f xs) (List.replicate xs.length .waiting) s) : PoolInv f xs s := by
  induction h with
  | refl => exact .init f xs
  | tail _ h ih => exact ih.step h

theorem PoolInv.collect {α β : Type} {f : α → Outcome Empty β} {xs : List α} {s : List (Task β)}
    (I : PoolInv f xs s) (h : PoolFinished s) : poolCollect s = mapOutcome f xs := by
  by_cases hf : ∃ i : Nat, s[i]? = some .failed
  · obtain ⟨i, hi⟩ := hf
    obtain ⟨x, hx, hfx⟩ := I.failed i hi
    rw [mapOutcome_panic hx hfx]
    exact mapOutcome_panic hi rfl
  · unfold poolCollect
    refine mapOutcome_congr_getElem I.length fun i h1 h2 => ?_
    have hi := List.getElem?_eq_getElem h1
    cases ht : s[i] with
    | waiting => rw [ht] at hi; exact absurd hi (h i).1
    | running => rw [ht] at hi; exact absurd hi (h i).2
    | done b =>
      rw [ht] at hi
      obtain ⟨x, hx, hfx⟩ := I.done i b hi
      rw [List.getElem?_eq_getElem h2] at hx
      rw [Option.some.inj hx, hfx]
    | failed => rw [ht] at hi; exact absurd ⟨i, hi⟩ hf
    | abandoned => rw [ht] at hi; exact absurd (I.abandoned i hi) hf

/-- Steps a task has left. -/
def Task.left {β : Type} : Task β → Nat
  | .waiting => 2
  | .running => 1
  | _ => 0

theorem sum_set {β : Type} (g : β → Nat) (s : List β) (i : Nat) (a b : β) (h : s[i]? = some a) :
    ((s.set i b).map g).sum + g a = (s.map g).sum + g b := by
  induction s generalizing i with
  | nil => simp at h
  | cons c s ih => cases i with
    | zero =>
      simp only [List.getElem?_cons_zero, Option.some.injEq] at h
      subst h
      simp only [List.set_cons_zero, List.map_cons, List.sum_cons]
      omega
    | succ i =>
      simp only [List.getElem?_cons_succ] at h
      have := ih i h
      simp only [List.set_cons_succ, List.map_cons, List.sum_cons]
      omega

theorem poolStep_left {α β : Type} {f : α → Outcome Empty β} {xs : List α} {s s' : List (Task β)}
    (h : PoolStep f xs s s') : (s'.map Task.left).sum < (s.map Task.left).sum := by
  cases h with
  | start i hi => have := sum_set Task.left s i _ .running hi; simp only [Task.left] at this ⊢; omega
  | finish i x b hi _ _ => have := sum_set Task.left s i _ (.done b) hi; simp only [Task.left] at this ⊢; omega
  | fail i x hi _ _ => have := sum_set Task.left s i _ .failed hi; simp only [Task.left] at this ⊢; omega
  | abandon i j hi _ => have := sum_set Task.left s i _ .abandoned hi; simp only [Task.left] at this ⊢; omega

theorem pool_progress {α β : Type} {f : α → Outcome Empty β} {xs : List α} {s : List (Task β)}
    (hl : s.length = xs.length) (h : ¬ PoolFinished s) : ∃ s', PoolStep f xs s s' := by
  unfold PoolFinished at h
  push Not at h
  obtain ⟨i, hi⟩ := h
  by_cases hw : s[i]? = some .waiting
  · exact ⟨_, .start i hw⟩
  · have hr := hi hw
    obtain ⟨hlt, -⟩ := List.getElem?_eq_some_iff.mp hr
    have hx := List.getElem?_eq_getElem (l := xs) (i := i) (by omega)
    rcases (f xs[i]).ok_or_panic with ⟨b, hb⟩ | hp
    · exact ⟨_, .finish i _ b hr hx hb⟩
    · exact ⟨_, .fail i _ hr hx hp⟩

theorem pool_ends {α β : Type} (f : α → Outcome Empty β) (xs : List α) (s : List (Task β))
    (hl : s.length = xs.length) :
    ∃ s', Relation.ReflTransGen (PoolStep f xs) s s' ∧ PoolFinished s' := by
  induction hn : (s.map Task.left).sum using Nat.strong_induction_on generalizing s with
  | _ n ih =>
    by_cases h : PoolFinished s
    · exact ⟨s, .refl, h⟩
    · obtain ⟨s1, h1⟩ := pool_progress (f := f) hl h
      have hl1 : s1.length = xs.length := by
        rw [← hl]
        cases h1 <;> rw [List.length_set]
      obtain ⟨s2, h2, h3⟩ := ih _ (by rw [← hn]; exact poolStep_left h1) s1 hl1 rfl
      exact ⟨s2, .head h1 h2, h3⟩

theorem parMap_eq (S : Schedule) (k : Nat) {α β : Type} (f : α → Outcome Empty β) (xs : List α) :
    parMap S k f xs = mapOutcome f xs :=
  (PoolInv.reached (S.reached k f xs)).collect (S.finished k f xs)

theorem evaluateTransitionExemptionsPar_eq (S : Schedule) (ta : TwoAdic F) (es : List F[X]) (d : Domain F) :
    evaluateTransitionExemptionsPar S ta es d = evaluateTransitionExemptions ta es d := parMap_eq _ _ _ _

theorem evaluateConstraintsPar_eq (S : Schedule) (ta : TwoAdic F) (air : Air F Ch)
    (boundary : List (BoundaryConstraint F)) (lde : TraceTable F) (d : Domain F) (tc bc : List (F × F)) (ch : Ch)
    (h : air.context.proofOptions.blowupFactor = 0 → d.ldeRootsOfUnityCoset = []) :
    evaluateConstraintsPar S ta air boundary lde d tc bc ch
      = evaluateConstraints ta air boundary lde d tc bc ch := by
  unfold evaluateConstraintsPar evaluateConstraints
  simp only [parMap_eq, evaluateTransitionExemptionsPar_eq]
  congr 1; funext zs
  congr 1; funext adj
  split
  · rfl
  congr 1; funext be
  congr 1; funext ex
  congr 1; funext ee
  congr 1; funext md
  congr 1; funext da
  rcases (ta.powersCoset (trailingZeros 8 air.context.proofOptions.blowupFactor.toNat)
    air.context.proofOptions.blowupFactor.toNat
    ((air.context.proofOptions.cosetOffset : F) ^ air.traceLength)).ok_or_panic with ⟨powers, hpow⟩ | hpow
  swap
  · rw [hpow]; rfl
  rw [hpow, Outcome.bind_ok, Outcome.bind_ok]
  have hlen : powers.length = air.context.proofOptions.blowupFactor.toNat := by
    unfold TwoAdic.powersCoset at hpow
    simp only [Outcome.bind_eq_ok, Outcome.pure_eq, Outcome.ok.injEq] at hpow
    obtain ⟨w, -, rfl⟩ := hpow
    simp
  rcases (batchInverse (powers.map (· - 1))).ok_or_panic with ⟨z, hz⟩ | hz
  swap
  · rw [hz]; rfl
  rw [hz, Outcome.bind_ok, Outcome.bind_ok]
  have hzl : z.length = air.context.proofOptions.blowupFactor.toNat := by
    obtain ⟨-, rfl⟩ := batchInverse_eq_ok.mp hz
    simpa using hlen
  by_cases hb : air.context.proofOptions.blowupFactor = 0
  · rw [h hb]
    simp [mapOutcome]
  have hpos : 0 < z.length := by
    rw [hzl]
    have : air.context.proofOptions.blowupFactor.toNat ≠ 0 := fun hc => hb (by
      have := UInt8.ofNat_toNat (x := air.context.proofOptions.blowupFactor)
      rw [hc] at this
      exact this.symm)
    omega
  rw [cycleTake_eq (f := fun i => z.getD (i % z.length) 0) (fun i => by
    have := Nat.mod_lt i hpos
    rw [List.getD_eq_getElem?_getD, List.getElem?_eq_getElem this]; rfl)]
  refine mapOutcome_congr_getElem (by simp) fun i h1 h2 => ?_
  simp only [List.length_zip, List.length_range, List.length_map] at h1 h2
  simp only [List.getElem_zip, List.getElem_range, List.getElem_map]
  rw [if_neg (by omega), index_ok (a := z.getD (i % z.length) 0) (by
    have := Nat.mod_lt i hpos
    rw [List.getD_eq_getElem?_getD, List.getElem?_eq_getElem this]; rfl), Outcome.bind_ok]

theorem interpolateAndCommitPar_eq (S : Schedule) (k : Nat) (env : Env F T) (trace : TraceTable F) (d : Domain F)
    (t : T) : interpolateAndCommitPar S k env trace d t = interpolateAndCommit env trace d t := by
  unfold interpolateAndCommitPar interpolateAndCommit computeLdeTraceEvaluationsPar computeLdeTraceEvaluations
  simp only [parMap_eq]

theorem round1Par_eq (S : Schedule) (env : Env F T) (air : Air F Ch) (trace : TraceTable F) (d : Domain F)
    (t : T) : round1Par S env air trace d t = round1 env air trace d t := by
  unfold round1Par round1
  simp only [interpolateAndCommitPar_eq]

omit [DecidableEq F] in
theorem domain_blowup_zero {ta : TwoAdic F} {air : Air F Ch} {d : Domain F} (h : Domain.new ta air = .ok d)
    (hb : air.context.proofOptions.blowupFactor = 0) : d.ldeRootsOfUnityCoset = [] := by
  unfold Domain.new at h
  simp only [Outcome.bind_eq_ok, hb] at h
  obtain ⟨g, -, tr, -, h⟩ := h
  split at h
  · cases h
  · simp only [Outcome.bind_eq_ok, Outcome.pure_eq, Outcome.ok.injEq] at h
    obtain ⟨lde, h1, rfl⟩ := h
    unfold TwoAdic.powersCoset at h1
    simp only [Outcome.bind_eq_ok, Outcome.pure_eq, Outcome.ok.injEq] at h1
    obtain ⟨w, -, rfl⟩ := h1
    simp

theorem provePar_eq {PI : Type} (S : Schedule) (env : Env F T) (new : AirNew F Ch PI) (trace : TraceTable F)
    (pi : PI) (options : ProofOptions) :
    provePar S env new trace pi options = prove env new trace pi options := by
  unfold provePar prove
  simp only [round1Par_eq]
  congr 1; funext air
  rcases (Domain.new env.ta air).ok_or_panic with ⟨d, hd⟩ | hd
  swap
  · rw [hd]; rfl
  rw [hd, Outcome.bind_ok, Outcome.bind_ok]
  congr 1; funext r1
  have : ∀ tc bc, round2Par S env air d r1.1 tc bc = round2 env air d r1.1 tc bc := by
    intro tc bc
    unfold round2Par round2
    simp only [evaluateConstraintsPar_eq S env.ta air _ _ d _ _ _ (domain_blowup_zero hd)]
  simp only [this]

end Verif
