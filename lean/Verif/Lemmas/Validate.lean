import Verif.Spec.Air
import Verif.Lemmas.Trace

/-! Helper lemmas about `validate_trace`. -/

namespace Verif
open TraceTable Spec
variable {F Ch : Type} [DecidableEq F]

theorem mapOutcome_map {ε α β : Type} {f : α → Outcome ε β} {g : α → β} {l : List α}
    (h : ∀ a ∈ l, f a = .ok (g a)) : mapOutcome f l = .ok (l.map g) := by
  induction l with
  | nil => rfl
  | cons a t ih =>
    rw [mapOutcome, h a (by simp), ih fun b hb => h b (by simp [hb])]
    rfl

theorem readFromTrace_ofRows {ε : Type} (rows : List (List F)) (w : Nat) (hw : 0 < w)
    (h : ∀ r ∈ rows, r.length = w) (hn : 0 < rows.length) (i : Nat) (offsets : List Nat) :
    (Frame.readFromTrace (ofRows rows w) i 1 offsets : Outcome ε _)
      = .ok (frameAt rows w offsets i) := by
  unfold Frame.readFromTrace
  rw [nRows_ofRows rows w hw h]
  rw [mapOutcome_map (g := fun o => rows.getD ((i + o) % rows.length) [])]
  · rfl
  · intro o _
    rw [if_neg (by omega), Nat.mul_one]
    have hlt : (i + o) % rows.length < rows.length := Nat.mod_lt _ hn
    rw [getRow_ofRows rows w h _ hlt, List.getD_eq_getElem _ _ hlt]

theorem validateBoundary_iff (rows : List (List F)) (w : Nat) (h : ∀ r ∈ rows, r.length = w)
    (cs : List (BoundaryConstraint F)) (hin : ∀ c ∈ cs, c.step < rows.length ∧ c.col < w) :
    ∃ b, validateBoundary (ofRows rows w) cs = .ok b ∧
      (b = true ↔ ∀ c ∈ cs, ∃ row, rows[c.step]? = some row ∧ row[c.col]? = some c.value) := by
  induction cs with
  | nil => exact ⟨true, rfl, by simp⟩
  | cons c t ih =>
    obtain ⟨b, hb, hiff⟩ := ih fun c' hc' => hin c' (by simp [hc'])
    obtain ⟨h1, h2⟩ := hin c (by simp)
    have hlen : c.col < rows[c.step].length := by rw [h _ (List.getElem_mem _)]; exact h2
    refine ⟨decide (c.value = rows[c.step][c.col]) && b, ?_, ?_⟩
    · rw [validateBoundary, get_ofRows rows w h _ _ h1 h2,
        index_ok (List.getElem?_eq_getElem hlen), Outcome.bind_ok, hb]
      rfl
    · rw [Bool.and_eq_true, hiff]
      simp only [decide_eq_true_eq, List.mem_cons, forall_eq_or_imp]
      apply and_congr _ Iff.rfl
      constructor
      · intro he
        exact ⟨_, List.getElem?_eq_getElem h1, by rw [List.getElem?_eq_getElem hlen, he]⟩
      · rintro ⟨row, hr, hv⟩
        rw [List.getElem?_eq_getElem h1] at hr
        cases hr
        rw [List.getElem?_eq_getElem hlen] at hv
        exact (Option.some.inj hv).symm

theorem validateEvaluations_iff [Zero F] (step : Nat) (limits : List Nat) (evals : List F) (i : Nat)
    (hl : i + evals.length ≤ limits.length) :
    ∃ b, validateEvaluations step limits i evals = .ok b ∧
      (b = true ↔ ∀ (k : Nat) (e : F) (x : Nat), evals[k]? = some e → limits[i + k]? = some x →
        step < x → e = 0) := by
  induction evals generalizing i with
  | nil => exact ⟨true, rfl, by simp⟩
  | cons e t ih =>
    obtain ⟨b, hb, hiff⟩ := ih (i + 1) (by simp at hl; omega)
    have hi : i < limits.length := by simp at hl; omega
    refine ⟨!(decide (step < limits[i]) && decide (e ≠ 0)) && b, ?_, ?_⟩
    · rw [validateEvaluations, index_ok (List.getElem?_eq_getElem hi), Outcome.bind_ok, hb]
      rfl
    · rw [Bool.and_eq_true, hiff]
      constructor
      · rintro ⟨h1, h2⟩ k e' x hk hx hlt
        cases k with
        | zero =>
          simp only [List.getElem?_cons_zero, Option.some.injEq] at hk
          rw [Nat.add_zero, List.getElem?_eq_getElem hi, Option.some.injEq] at hx
          subst hk hx
          by_contra hne
          simp [hlt, hne] at h1
        | succ k =>
          rw [List.getElem?_cons_succ] at hk
          exact h2 k e' x hk (by rw [← hx]; congr 1; omega) hlt
      · intro h
        refine ⟨?_, fun k e' x hk hx hlt => h (k + 1) e' x (by simpa using hk)
          (by rw [← hx]; congr 1; omega) hlt⟩
        have := h 0 e limits[i] rfl (by rw [Nat.add_zero, List.getElem?_eq_getElem hi])
        by_cases hlt : step < limits[i]
        · simp [this hlt]
        · simp [hlt]

theorem exemptionSteps_ok {n c : Nat} {ex : List Nat} (hl : ex.length = c)
    (hle : ∀ x ∈ ex, x ≤ n) : exemptionSteps n c ex = .ok (ex.map fun x => n - x) := by
  unfold exemptionSteps
  rw [List.take_of_length_le (by omega)]
  apply mapOutcome_map
  intro x hx
  rw [if_pos (hle x hx)]

theorem validateSteps_iff [Zero F] (air : Air F Ch) (rows : List (List F)) (w : Nat)
    (h : ∀ r ∈ rows, r.length = w) (ch : Ch) (D : Declared air rows.length w ch) (steps : List Nat)
    (b : Bool) :
    validateSteps air (ofRows rows w) ch
        (air.context.transitionExemptions.map fun x => rows.length - x) steps = .ok b →
      (b = true ↔ ∀ i ∈ steps, ∃ evals,
        air.computeTransition (frameAt rows w air.context.transitionOffsets i) ch = .ok evals ∧
        ∀ (k : Nat) (x : Nat), air.context.transitionExemptions[k]? = some x → i + x < rows.length →
          evals[k]? = some 0) := by
  induction steps generalizing b with
  | nil => intro hb; simp [validateSteps] at hb; simp [← hb]
  | cons i t ih =>
    intro hb
    rw [validateSteps, readFromTrace_ofRows rows w D.width_pos h D.rows_pos] at hb
    simp only [Outcome.bind_ok, Outcome.bind_eq_ok, Outcome.pure_eq, Outcome.ok.injEq] at hb
    obtain ⟨evals, he, b1, hb1, b2, hb2, rfl⟩ := hb
    have hlen := D.evals_len _ _ he
    obtain ⟨b1', hb1', hiff⟩ := validateEvaluations_iff i
      (air.context.transitionExemptions.map fun x => rows.length - x) evals 0
      (by rw [List.length_map, D.exemptions_len, hlen]; omega)
    rw [hb1'] at hb1
    cases hb1
    rw [Bool.and_eq_true, hiff, ih b2 hb2]
    simp only [List.mem_cons, forall_eq_or_imp]
    apply and_congr _ Iff.rfl
    constructor
    · intro hz
      refine ⟨evals, he, fun k x hx hlt => ?_⟩
      have hk : k < evals.length := by
        rw [hlen, ← D.exemptions_len]
        exact (List.getElem?_eq_some_iff.1 hx).1
      have hz' := hz k evals[k] (rows.length - x) (List.getElem?_eq_getElem hk)
        (by rw [Nat.zero_add, List.getElem?_map, hx]; rfl) (by omega)
      rw [List.getElem?_eq_getElem hk, hz']
    · rintro ⟨evals', he', hz⟩ k e x hk hx hlt
      rw [he] at he'
      cases he'
      rw [Nat.zero_add, List.getElem?_map, Option.map_eq_some_iff] at hx
      obtain ⟨y, hy, rfl⟩ := hx
      have := hz k y hy (by omega)
      rw [hk] at this
      exact Option.some.inj this

theorem validateSteps_ok [Zero F] (air : Air F Ch) (rows : List (List F)) (w : Nat)
    (h : ∀ r ∈ rows, r.length = w) (ch : Ch) (D : Declared air rows.length w ch) (steps : List Nat)
    (hev : ∀ i ∈ steps, ∃ evals,
      air.computeTransition (frameAt rows w air.context.transitionOffsets i) ch = .ok evals) :
    ∃ b, validateSteps air (ofRows rows w) ch
        (air.context.transitionExemptions.map fun x => rows.length - x) steps = .ok b := by
  induction steps with
  | nil => exact ⟨true, rfl⟩
  | cons i t ih =>
    obtain ⟨b, hb⟩ := ih fun j hj => hev j (by simp [hj])
    obtain ⟨evals, he⟩ := hev i (by simp)
    obtain ⟨b1, hb1, -⟩ := validateEvaluations_iff i
      (air.context.transitionExemptions.map fun x => rows.length - x) evals 0
      (by rw [List.length_map, D.exemptions_len, D.evals_len _ _ he]; omega)
    refine ⟨b1 && b, ?_⟩
    rw [validateSteps, readFromTrace_ofRows rows w D.width_pos h D.rows_pos]
    simp only [Outcome.bind_ok]
    rw [he, Outcome.bind_ok, hb1, Outcome.bind_ok, hb]
    rfl

end Verif
