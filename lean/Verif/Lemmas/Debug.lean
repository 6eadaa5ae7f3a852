import Verif.Model.Debug
import Verif.Lemmas.Poly
import Verif.Lemmas.Stark

/-!
# The assertion of `new_from_cols` in debug builds
-/

namespace Verif
open Polynomial TraceTable
variable {F T Ch : Type} [Field F] [DecidableEq F] {env : Env F T}

omit [Field F] [DecidableEq F] in
theorem newFromColsDebug_ok {cols : List (List F)} {t : TraceTable F} (h : newFromColsDebug cols = .ok t) :
    newFromCols cols = .ok t := by
  unfold newFromColsDebug at h
  simp only [Outcome.bind_eq_ok] at h
  obtain ⟨first, -, h⟩ := h
  split at h
  · exact h
  · cases h

omit [Field F] [DecidableEq F] in
theorem newFromColsDebug_eq {cols : List (List F)} {n : Nat} (h : ∀ c ∈ cols, c.length = n) :
    newFromColsDebug cols = newFromCols cols := by
  cases cols with
  | nil => rfl
  | cons c cs =>
    unfold newFromColsDebug
    have hi : (index (c :: cs) 0 : Outcome Empty (List F)) = .ok c := rfl
    rw [hi]
    simp only [Outcome.bind_ok]
    rw [if_pos]
    simp only [List.all_eq_true, decide_eq_true_eq]
    intro x hx
    rw [h x hx, h c (by simp)]

/-- On an extended domain whose size is a power of two every polynomial has the same number of values. -/
theorem evaluateOnLde_length {ta : TwoAdic F} {p : F[X]} {a b : Nat} {h : F} {l : List F}
    (hl : evaluateOnLde ta p (2 ^ b) (2 ^ a) h = .ok l) : l.length = 2 ^ (a + b) := by
  obtain ⟨k, hk⟩ : ∃ k, k = Nat.clog 2 (max (coefficients p).length (2 ^ a)) := ⟨_, rfl⟩
  have hak : a ≤ k := by
    rw [hk]
    calc a = Nat.clog 2 (2 ^ a) := (Nat.clog_pow 2 a (by norm_num)).symm
      _ ≤ _ := Nat.clog_mono_right 2 (le_max_right _ _)
  obtain ⟨j, rfl⟩ : ∃ j, k = a + j := ⟨k - a, by omega⟩
  unfold evaluateOnLde at hl
  simp only [Outcome.bind_eq_ok] at hl
  obtain ⟨ev, hev, hl⟩ := hl
  have hlen : ev.length = 2 ^ (a + b) * 2 ^ j := by
    unfold evaluateOffsetFft at hev
    simp only at hev
    split at hev
    · cases hev
    · simp only [Outcome.bind_eq_ok, Outcome.pure_eq, Outcome.ok.injEq] at hev
      obtain ⟨w, -, rfl⟩ := hev
      simp only [List.length_map, List.length_range, nextPowerOfTwo]
      rw [← hk, pow_add, pow_add]
      ring
  have hne : 2 ^ a * 2 ^ b ≠ 0 := by positivity
  rw [if_neg hne, hlen, show 2 ^ a * 2 ^ b = 2 ^ (a + b) from (pow_add 2 a b).symm,
    Nat.mul_div_cancel_left _ (by positivity)] at hl
  split at hl
  · rename_i h1
    obtain rfl := Outcome.ok.inj hl
    rw [hlen, h1, mul_one]
  · split at hl
    · cases hl
    · obtain rfl := Outcome.ok.inj hl
      rw [stepBy_mul _ _ (by positivity)]
      simp

theorem computeLdeTraceEvaluations_length {polys : List F[X]} {d : Domain F} {a b : Nat}
    (hs : d.interpolationDomainSize = 2 ^ a) (hb : d.blowupFactor = 2 ^ b) {l : List (List F)}
    (h : computeLdeTraceEvaluations env polys d = .ok l) : ∀ c ∈ l, c.length = 2 ^ (a + b) := by
  intro c hc
  unfold computeLdeTraceEvaluations at h
  rw [hs, hb] at h
  obtain ⟨i, hi, rfl⟩ := List.getElem_of_mem hc
  obtain ⟨h1, h2⟩ := mapOutcome_mem h
  exact evaluateOnLde_length (h2 i (h1 ▸ hi) hi)

theorem interpolateAndCommitDebug_eq (trace : TraceTable F) {d : Domain F} {a b : Nat}
    (hs : d.interpolationDomainSize = 2 ^ a) (hb : d.blowupFactor = 2 ^ b) (t : T) :
    interpolateAndCommitDebug env trace d t = interpolateAndCommit env trace d t := by
  unfold interpolateAndCommitDebug interpolateAndCommit
  cases trace.computeTracePolys env.ta with
  | panic => rfl
  | err e => exact e.elim
  | ok polys =>
    simp only [Outcome.bind_ok]
    cases h : computeLdeTraceEvaluations env polys d with
    | panic => rfl
    | err e => exact e.elim
    | ok l =>
      simp only [Outcome.bind_ok]
      rw [newFromColsDebug_eq (computeLdeTraceEvaluations_length hs hb h)]

theorem interpolateAndCommit_length {trace : TraceTable F} {d : Domain F} {a b : Nat}
    (hs : d.interpolationDomainSize = 2 ^ a) (hb : d.blowupFactor = 2 ^ b) {t : T}
    {r : (List F[X] × List (List F) × Merkle.Tree × Commitment) × T}
    (h : interpolateAndCommit env trace d t = .ok r) : ∀ c ∈ r.1.2.1, c.length = 2 ^ (a + b) := by
  unfold interpolateAndCommit at h
  simp only [Outcome.bind_eq_ok, Outcome.pure_eq, Outcome.ok.injEq] at h
  obtain ⟨polys, -, l, h, -, -, -, -, -, -, rfl⟩ := h
  exact computeLdeTraceEvaluations_length hs hb h

/-- On domains whose sizes are powers of two the assertion never fires. -/
theorem round1Debug_eq (air : Air F Ch) (trace : TraceTable F) {d : Domain F} {a b : Nat}
    (hs : d.interpolationDomainSize = 2 ^ a) (hb : d.blowupFactor = 2 ^ b) (t : T) :
    round1Debug env air trace d t = round1 env air trace d t := by
  unfold round1Debug round1
  rw [interpolateAndCommitDebug_eq trace hs hb]
  cases hm : interpolateAndCommit env trace d t with
  | panic => rfl
  | err e => exact e.elim
  | ok m =>
    simp only [Outcome.bind_ok]
    cases air.buildAuxiliaryTrace trace (buildRapChallenges env air m.2).1 with
    | panic => rfl
    | err e => exact e.elim
    | ok aux =>
      simp only [Outcome.bind_ok]
      split
      · rw [newFromColsDebug_eq (interpolateAndCommit_length hs hb hm)]
      · rw [interpolateAndCommitDebug_eq aux hs hb]
        cases ha : interpolateAndCommit env aux d (buildRapChallenges env air m.2).2 with
        | panic => rfl
        | err e => exact e.elim
        | ok x =>
          simp only [Outcome.bind_ok]
          rw [newFromColsDebug_eq (n := 2 ^ (a + b))]
          intro c hc
          rcases List.mem_append.mp hc with hc | hc
          · exact interpolateAndCommit_length hs hb hm c hc
          · exact interpolateAndCommit_length hs hb ha c hc

/-- What the asserting first round returns, the first round returns. -/
theorem round1Debug_ok {air : Air F Ch} {trace : TraceTable F} {d : Domain F} {t : T} {r : Round1 F Ch × T}
    (h : round1Debug env air trace d t = .ok r) : round1 env air trace d t = .ok r := by
  have hi : ∀ {trace : TraceTable F} {t : T} {x}, interpolateAndCommitDebug env trace d t = .ok x →
      interpolateAndCommit env trace d t = .ok x := by
    intro trace t x h
    unfold interpolateAndCommitDebug at h
    simp only [Outcome.bind_eq_ok, Outcome.pure_eq, Outcome.ok.injEq] at h
    obtain ⟨polys, h1, l, h2, lde, h3, h4⟩ := h
    unfold interpolateAndCommit
    simp only [Outcome.bind_eq_ok, Outcome.pure_eq, Outcome.ok.injEq]
    exact ⟨polys, h1, l, h2, lde, newFromColsDebug_ok h3, h4⟩
  unfold round1Debug at h
  simp only [Outcome.bind_eq_ok] at h
  obtain ⟨m, hm, aux, haux, h⟩ := h
  unfold round1
  simp only [Outcome.bind_eq_ok]
  refine ⟨m, hi hm, aux, haux, ?_⟩
  split
  · rename_i h0
    rw [if_pos h0] at h
    simp only [Outcome.bind_eq_ok] at h ⊢
    obtain ⟨lde, hl, h⟩ := h
    exact ⟨lde, newFromColsDebug_ok hl, h⟩
  · rename_i h0
    rw [if_neg h0] at h
    simp only [Outcome.bind_eq_ok] at h ⊢
    obtain ⟨x, hx, lde, hl, h⟩ := h
    exact ⟨x, hi hx, lde, newFromColsDebug_ok hl, h⟩

end Verif
