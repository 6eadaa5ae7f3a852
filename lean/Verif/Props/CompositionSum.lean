import Verif.Model.CompositionSum
import Verif.Model.Verifier
import Verif.Props.Verifier
import Verif.Props.Constraints

/-!
# The sum of the constraint evaluations (C82)
-/

namespace Verif.Props
open Verif Spec
variable {F Ch : Type} [Field F]

theorem sum_foldl (evs invs degs : List F) (coeffs : List (F × F)) (acc : F) :
    (((evs.zip degs).zip invs).zip coeffs).foldl
      (fun acc x => acc + x.1.1.1 * (x.2.1 * x.1.1.2 + x.2.2) * x.1.2) acc
    = acc + ∑ i ∈ Finset.range (min (min (min evs.length degs.length) invs.length) coeffs.length),
      evs.getD i 0 * ((coeffs.getD i 0).1 * degs.getD i 0 + (coeffs.getD i 0).2) * invs.getD i 0 := by
  induction evs generalizing invs degs coeffs acc with
  | nil => simp
  | cons ev evs ih =>
    cases degs with
    | nil => simp
    | cons deg degs =>
      cases invs with
      | nil => simp
      | cons inv invs =>
        cases coeffs with
        | nil => simp
        | cons c coeffs =>
          rw [List.zip_cons_cons, List.zip_cons_cons, List.zip_cons_cons, List.foldl_cons, ih]
          simp only [List.length_cons, Nat.add_min_add_right, Finset.sum_range_succ', List.getD_cons_succ,
            List.getD_cons_zero]
          ring

/-- **C82**: the function returns the documented sum: over the constraints for which all four lists have an entry, of the
evaluation times `α` times the power of the point plus `β`, times the inverse of the zerofier. -/
theorem C82_documented_sum (evaluations inverses powers : List F) (coeffs : List (F × F)) :
    compositionPolyEvaluationsSum evaluations inverses powers coeffs
      = ∑ i ∈ Finset.range (min (min (min evaluations.length powers.length) inverses.length) coeffs.length),
        evaluations.getD i 0 * ((coeffs.getD i 0).1 * powers.getD i 0 + (coeffs.getD i 0).2) * inverses.getD i 0 := by
  unfold compositionPolyEvaluationsSum
  rw [sum_foldl, zero_add]

/-- A sum over constraints, each with a factor and a power, is the sum of the function. -/
theorem sum_of_foldlM (R : Nat → Nat → F → F → Prop) (f : F → F → Nat → Nat → F × F → Outcome Empty F)
    (hf : ∀ acc ev dg ex c v, f acc ev dg ex c = .ok v →
      ∃ inv pw, R dg ex inv pw ∧ v = acc + ev * (c.1 * pw + c.2) * inv)
    (evs : List F) (degrees exemptions : List Nat) (coeffs : List (F × F)) (acc v : F)
    (h : (((evs.zip degrees).zip exemptions).zip coeffs).foldlM (fun acc x => f acc x.1.1.1 x.1.1.2 x.1.2 x.2) acc
      = .ok v) :
    ∃ invs pws, invs.length = min (min (min evs.length degrees.length) exemptions.length) coeffs.length ∧
      pws.length = invs.length ∧
      (∀ (k : Nat) dg ex inv pw, degrees[k]? = some dg → exemptions[k]? = some ex → invs[k]? = some inv →
        pws[k]? = some pw → R dg ex inv pw) ∧
      v = (((evs.zip pws).zip invs).zip coeffs).foldl
        (fun acc x => acc + x.1.1.1 * (x.2.1 * x.1.1.2 + x.2.2) * x.1.2) acc := by
  have stop : (((evs.zip degrees).zip exemptions).zip coeffs) = [] → ∃ invs pws : List F,
      invs.length = min (min (min evs.length degrees.length) exemptions.length) coeffs.length ∧
      pws.length = invs.length ∧
      (∀ (k : Nat) dg ex inv pw, degrees[k]? = some dg → exemptions[k]? = some ex → invs[k]? = some inv →
        pws[k]? = some pw → R dg ex inv pw) ∧
      v = (((evs.zip pws).zip invs).zip coeffs).foldl
        (fun acc x => acc + x.1.1.1 * (x.2.1 * x.1.1.2 + x.2.2) * x.1.2) acc := by
    intro hz
    rw [hz] at h
    have hl := congrArg List.length hz
    simp only [List.length_zip, List.length_nil] at hl
    refine ⟨[], [], by rw [hl]; rfl, rfl, fun k dg ex inv pw _ _ h3 _ => by simp at h3, ?_⟩
    simp only [List.zip_nil_right, List.zip_nil_left, List.foldl_nil]
    exact (Outcome.ok.inj h).symm
  induction evs generalizing degrees exemptions coeffs acc with
  | nil => exact stop rfl
  | cons ev evs ih =>
    cases degrees with
    | nil => exact stop rfl
    | cons dg degrees =>
      cases exemptions with
      | nil => exact stop (by simp)
      | cons ex exemptions =>
        cases coeffs with
        | nil => exact stop (by simp)
        | cons c coeffs =>
          clear stop
          rw [List.zip_cons_cons, List.zip_cons_cons, List.zip_cons_cons, List.foldlM_cons] at h
          obtain ⟨acc', h1, h2⟩ := Outcome.bind_eq_ok.1 h
          obtain ⟨inv, pw, hR, rfl⟩ := hf _ _ _ _ _ _ h1
          obtain ⟨invs, pws, g1, g2, g3, g4⟩ := ih degrees exemptions coeffs _ h2 (by
            intro hz
            rw [hz] at h2
            have hl := congrArg List.length hz
            simp only [List.length_zip, List.length_nil] at hl
            refine ⟨[], [], by rw [hl]; rfl, rfl, fun k dg ex inv pw _ _ h3 _ => by simp at h3, ?_⟩
            simp only [List.zip_nil_right, List.zip_nil_left, List.foldl_nil]
            exact (Outcome.ok.inj h2).symm)
          refine ⟨inv :: invs, pw :: pws, ?_, ?_, ?_, ?_⟩
          · simp only [List.length_cons, g1, Nat.add_min_add_right]
          · simp only [List.length_cons, g2]
          · intro k dg' ex' inv' pw' a1 a2 a3 a4
            cases k with
            | zero =>
              simp only [List.getElem?_cons_zero, Option.some.injEq] at a1 a2 a3 a4
              subst a1 a2 a3 a4
              exact hR
            | succ k =>
              simp only [List.getElem?_cons_succ] at a1 a2 a3 a4
              exact g3 k dg' ex' inv' pw' a1 a2 a3 a4
          · exact g4

/-- The two constraints of the documentation's kind, the second list of powers being one too short: only the first
constraint is summed. -/
example : compositionPolyEvaluationsSum [(3 : ℚ), 5] [1/2, 7] [4] [(2, 1), (1, 1)] = 27 / 2 := by
  norm_num [compositionPolyEvaluationsSum]

/-- **C82**: the verifier's transition term at the out-of-domain point is the sum of the function for the same evaluations
and coefficients, with the common denominator times the constraint's exemption for the inverse of its zerofier, and the
power of its degree. -/
theorem C82_verifier_term (air : Air F Ch) (evaluations : List F) (denominator : F) (exemption powers : List F)
    (coeffs : List (F × F)) (v : F)
    (h : oodTransition air evaluations denominator exemption powers coeffs = .ok v) :
    ∃ invs pws, invs.length = min (min (min evaluations.length air.context.transitionDegrees.length)
        air.context.transitionExemptions.length) coeffs.length ∧ pws.length = invs.length ∧
      (∀ (k : Nat) dg ex inv pw, air.context.transitionDegrees[k]? = some dg →
        air.context.transitionExemptions[k]? = some ex → invs[k]? = some inv → pws[k]? = some pw →
        1 ≤ dg ∧ powers[dg - 1]? = some pw ∧
        ((ex = 0 ∧ inv = denominator) ∨ (0 < ex ∧ ∃ e, exemption[ex - 1]? = some e ∧ inv = denominator * e))) ∧
      v = compositionPolyEvaluationsSum evaluations invs pws coeffs := by
  refine sum_of_foldlM
    (fun dg ex inv pw => 1 ≤ dg ∧ powers[dg - 1]? = some pw ∧
      ((ex = 0 ∧ inv = denominator) ∨ (0 < ex ∧ ∃ e, exemption[ex - 1]? = some e ∧ inv = denominator * e)))
    (fun acc ev dg ex c => do
      let e ← if ex = 0 then .ok 1 else index exemption (ex - 1)
      let d1 ← checkedSub dg 1
      let adj ← index powers d1
      return acc + denominator * ev * (c.1 * adj + c.2) * e)
    ?_ evaluations air.context.transitionDegrees air.context.transitionExemptions coeffs 0 v h
  intro acc ev dg ex c v h
  have fin : ∀ e : F, (do
      let d1 ← checkedSub dg 1
      let adj ← index powers d1
      return acc + denominator * ev * (c.1 * adj + c.2) * e : Outcome Empty F) = .ok v →
      ∃ adj, 1 ≤ dg ∧ powers[dg - 1]? = some adj ∧ v = acc + denominator * ev * (c.1 * adj + c.2) * e := by
    intro e h
    obtain ⟨d1, h2, h⟩ := Outcome.bind_eq_ok.1 h
    obtain ⟨adj, h3, h4⟩ := Outcome.bind_eq_ok.1 h
    obtain ⟨h2', rfl⟩ := checkedSub_ok.1 h2
    exact ⟨adj, h2', index_eq_ok.1 h3, (Outcome.ok.inj h4).symm⟩
  dsimp only at h
  split_ifs at h with h0
  · obtain ⟨adj, h2, h3, rfl⟩ := fin 1 h
    exact ⟨denominator, adj, ⟨h2, h3, .inl ⟨h0, rfl⟩⟩, by ring⟩
  · obtain ⟨e, h1, h⟩ := Outcome.bind_eq_ok.1 h
    obtain ⟨adj, h2, h3, rfl⟩ := fin e h
    exact ⟨denominator * e, adj, ⟨h2, h3, .inr ⟨by omega, e, index_eq_ok.1 h1, rfl⟩⟩, by ring⟩

/-- Three constraints, exempted from the last row, from none and from the last two. -/
example : oodTransition (exemptAir 2) [1, 2, 3] 2 [5, 6] [3] [(1, 1), (2, 0), (0, 4)] = .ok 4 := by
  decide +kernel

/-- **C82**: what the prover writes for the point of index `i` is its boundary term plus the sum of the function, for
the evaluations of the transition constraints on the frame of that point, with the inverse of the common zerofier times
the constraint's exemption at the point, and the power of its degree at the point. The exemption of a constraint is the
only one when the context counts one, and otherwise the one at the place of its number among the distinct positive numbers. -/
theorem C82_prover_term (air : Air F Ch) (ldeTrace : TraceTable F) (exemptions powers : List (List F))
    (coeffs : List (F × F)) (ch : Ch) (i : Nat) (boundary zerofier v : F)
    (h : evaluateRow air ldeTrace exemptions powers coeffs ch i boundary zerofier = .ok v) :
    ∃ frame evaluations invs pws,
      Frame.readFromTrace ldeTrace i air.context.proofOptions.blowupFactor.toNat air.context.transitionOffsets
        = (.ok frame : Outcome Empty (Frame F)) ∧ air.computeTransition frame ch = .ok evaluations ∧
      invs.length = min (min (min evaluations.length air.context.transitionExemptions.length)
        air.context.transitionDegrees.length) coeffs.length ∧ pws.length = invs.length ∧
      (∀ (k : Nat) ex dg inv pw, air.context.transitionExemptions[k]? = some ex →
        air.context.transitionDegrees[k]? = some dg → invs[k]? = some inv → pws[k]? = some pw →
        1 ≤ dg ∧ (∃ row, powers[dg - 1]? = some row ∧ row[i]? = some pw) ∧
        ((ex = 0 ∧ inv = zerofier) ∨ (0 < ex ∧ ∃ (j : Nat) (row : List F) (e : F), exemptions[j]? = some row ∧
          row[i]? = some e ∧ inv = zerofier * e ∧
          (if air.context.numTransitionExemptions = 1 then j = 0
            else (unique (air.context.transitionExemptions.filter (0 < ·)))[j]? = some ex)))) ∧
      v = compositionPolyEvaluationsSum evaluations invs pws coeffs + boundary := by
  obtain ⟨frame, h1, h⟩ := Outcome.bind_eq_ok.1 h
  obtain ⟨evaluations, h2, h⟩ := Outcome.bind_eq_ok.1 h
  obtain ⟨acc, h3, h⟩ := Outcome.bind_eq_ok.1 h
  have hv : v = acc + boundary := (Outcome.ok.inj h).symm
  have key := sum_of_foldlM
    (fun ex dg inv pw => 1 ≤ dg ∧ (∃ row, powers[dg - 1]? = some row ∧ row[i]? = some pw) ∧
        ((ex = 0 ∧ inv = zerofier) ∨ (0 < ex ∧ ∃ (j : Nat) (row : List F) (e : F), exemptions[j]? = some row ∧
          row[i]? = some e ∧ inv = zerofier * e ∧
          (if air.context.numTransitionExemptions = 1 then j = 0
            else (unique (air.context.transitionExemptions.filter (0 < ·)))[j]? = some ex))))
    (fun acc ev ex dg c => do
      let d1 ← checkedSub dg 1
      let adj ← index powers d1
      let adj ← index adj i
      let e ← exemptionFactor air.context.transitionExemptions air.context.numTransitionExemptions exemptions ex i
      return acc + zerofier * (c.1 * adj + c.2) * ev * e)
    ?_ evaluations air.context.transitionExemptions air.context.transitionDegrees coeffs 0 acc h3
  · obtain ⟨invs, pws, g1, g2, g3, g4⟩ := key
    exact ⟨frame, evaluations, invs, pws, h1, h2, g1, g2, g3, by rw [hv, g4]; rfl⟩
  clear h h1 h2 h3 hv
  intro acc ev ex dg c v h
  obtain ⟨d1, h2, h⟩ := Outcome.bind_eq_ok.1 h
  obtain ⟨row, h3, h⟩ := Outcome.bind_eq_ok.1 h
  obtain ⟨pw, h4, h⟩ := Outcome.bind_eq_ok.1 h
  obtain ⟨e, h5, h6⟩ := Outcome.bind_eq_ok.1 h
  obtain ⟨h2', rfl⟩ := checkedSub_ok.1 h2
  have hv := Outcome.ok.inj h6
  refine ⟨zerofier * e, pw, ⟨h2', ⟨row, index_eq_ok.1 h3, index_eq_ok.1 h4⟩, ?_⟩, by rw [← hv]; ring⟩
  unfold exemptionFactor at h5
  split_ifs at h5 with c0 c1
  · exact .inl ⟨c0, by rw [← Outcome.ok.inj h5, mul_one]⟩
  · obtain ⟨r, a1, a2⟩ := Outcome.bind_eq_ok.1 h5
    exact .inr ⟨by omega, 0, r, e, index_eq_ok.1 a1, index_eq_ok.1 a2, rfl, by rw [if_pos c1]⟩
  · obtain ⟨j, a0, h5⟩ := Outcome.bind_eq_ok.1 h5
    obtain ⟨r, a1, a2⟩ := Outcome.bind_eq_ok.1 h5
    refine .inr ⟨by omega, j, r, e, index_eq_ok.1 a1, index_eq_ok.1 a2, rfl, ?_⟩
    rw [if_neg c1]
    have a0' := ofOptionUnwrap_ok.1 a0
    obtain ⟨hj, hx, -⟩ := List.findIdx?_eq_some_iff_getElem.1 a0'
    rw [List.getElem?_eq_getElem hj]
    simpa using hx

/-- The constraints of `exemptAir` on a trace of one column, at the point of index 1. -/
example : evaluateRow (exemptAir 2) ⟨[1, 2, 3, 4, 5, 6, 7, 8], 1⟩ [[1, 2], [3, 4]] [[5, 6]]
    [(1, 1), (2, 0), (0, 4)] () 1 9 10 = .ok 9 := by
  decide +kernel

end Verif.Props
