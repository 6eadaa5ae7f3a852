import Verif.Model.ReleaseProver
import Verif.Lemmas.Release
import Verif.Spec.Builds

/-!
# The release and debug builds of the prover agree
-/

namespace Verif
noncomputable section
open Polynomial
variable {F T Ch : Type} [Field F] [DecidableEq F] {p : Prop} {air : Air F Ch}

theorem Agree.mapOutcome₂ {α β : Type} {f g : α → Outcome Empty β} {l : List α} (h : ∀ a ∈ l, Agree p (f a) (g a)) :
    Agree p (Verif.mapOutcome f l) (Verif.mapOutcome g l) := by
  induction l with
  | nil => exact .inl rfl
  | cons a l ih =>
    refine Agree.bind (h a (List.mem_cons_self)) fun _ _ => ?_
    exact Agree.bind (ih fun b hb => h b (List.mem_cons_of_mem _ hb)) fun _ _ => .inl rfl

omit [DecidableEq F] in
theorem transitionEvaluationAt_agree (hs : Sizes air) (hu : p → NoUnderflow air)
    (exemptionEvaluations degreeAdjustments : List (List F)) (evaluations : List F) (coeffs : List (F × F))
    (zerofier : F) (i : Nat) :
    Agree p (transitionEvaluationAt air.context exemptionEvaluations degreeAdjustments evaluations coeffs zerofier i)
      (transitionEvaluationAtRelease air.context exemptionEvaluations degreeAdjustments evaluations coeffs
        zerofier i) := by
  refine Agree.foldlM (fun s x hx => ?_) 0
  have hd : x.1.2 ∈ air.context.transitionDegrees := (List.of_mem_zip (List.of_mem_zip hx).1).2
  exact Agree.skip (agree_sub (hs.degrees _ hd) fun hp => (hu hp).degree _ hd) fun _ => .inl rfl

theorem evaluateConstraints_agree (hs : Sizes air) (hu : p → NoUnderflow air)
    (boundary : List (BoundaryConstraint F)) {boundary' : Ch → Outcome Empty (List (BoundaryConstraint F))}
    {aux : TraceTable F → Ch → Outcome Empty (TraceTable F)} (ta : TwoAdic F)
    (ldeTrace : TraceTable F) (domain : Domain F) (transitionCoeffs boundaryCoeffs : List (F × F)) (ch : Ch) :
    Agree p (evaluateConstraints ta air boundary ldeTrace domain transitionCoeffs boundaryCoeffs ch)
      (evaluateConstraintsRelease ta { air with boundaryConstraints := boundary', buildAuxiliaryTrace := aux }
        boundary ldeTrace domain transitionCoeffs boundaryCoeffs ch) := by
  unfold evaluateConstraints evaluateConstraintsRelease
  refine Agree.bind' _ fun _ _ => ?_
  refine Agree.skip (agree_sub hs.bound fun hp => (hu hp).length) fun _ => ?_
  dsimp only
  split
  · exact .inl rfl
  refine Agree.bind' _ fun _ _ => Agree.bind' _ fun _ _ => Agree.bind' _ fun _ _ => Agree.bind' _ fun m hm => ?_
  refine Agree.skip (a := (List.range m).map fun k =>
    domain.ldeRootsOfUnityCoset.map (· ^ wrappingSub air.compositionPolyDegreeBound (air.traceLength * k)))
    (Agree.mapOutcome fun k hk => ?_) fun _ => ?_
  · refine Agree.skip (agree_sub hs.bound fun hp => (hu hp).max m ?_ k (List.mem_range.mp hk)) fun _ => .inl rfl
    revert hm
    cases air.context.transitionDegrees.max? with
    | none => intro h; cases h
    | some m' => intro h; cases h; rfl
  · refine Agree.bind' _ fun _ _ => Agree.bind' _ fun _ _ => Agree.mapOutcome₂ fun x _ => ?_
    unfold evaluateRow evaluateRowRelease
    exact Agree.bind' _ fun _ _ => Agree.bind' _ fun _ _ =>
      Agree.bind (transitionEvaluationAt_agree hs hu _ _ _ _ _ _) fun _ _ => .inl rfl

/-- The prover of the two builds, for the same AIR up to its boundary constraints and its auxiliary trace. -/
theorem prove_agree {PI : Type} {env : Env F T} {new new' : AirNew F Ch PI} {trace : TraceTable F} {pi : PI}
    {options : ProofOptions} {boundary : Ch → Outcome Empty (List (BoundaryConstraint F))}
    {aux : TraceTable F → Ch → Outcome Empty (TraceTable F)}
    (h : new trace.nRows pi options = .ok air)
    (h' : new' trace.nRows pi options = .ok { air with boundaryConstraints := boundary, buildAuxiliaryTrace := aux })
    (hs : Sizes air) (hu : p → NoUnderflow air)
    (hb : ∀ ch, Agree p (air.boundaryConstraints ch) (boundary ch))
    (ha : ∀ ch, Agree p (air.buildAuxiliaryTrace trace ch) (aux trace ch)) :
    Agree p (prove env new trace pi options) (proveRelease env new' trace pi options) := by
  unfold prove proveRelease
  rw [h, h', Outcome.bind_ok, Outcome.bind_ok]
  refine Agree.bind' (Domain.new env.ta air) fun d _ => ?_
  refine Agree.bind ?_ fun r1 _ => ?_
  · unfold round1
    exact Agree.bind' _ fun _ _ => Agree.bind (ha _) fun _ _ => .inl rfl
  refine Agree.bind (hb _) fun bcs _ => ?_
  refine Agree.bind ?_ fun r2 _ => .inl rfl
  unfold round2 round2Release
  exact Agree.bind (hb _) fun _ _ => Agree.bind (evaluateConstraints_agree hs hu _ _ _ _ _ _ _) fun _ _ => .inl rfl

end

namespace ExecTrace
open CairoAir

theorem runningProducts_length' (acc : FE) (l : List FE) : (runningProducts acc l).length = l.length := by
  induction l generalizing acc with
  | nil => rfl
  | cons x l ih => simp [runningProducts, ih]

theorem memoryPermutationColumn_length {original sorted : List (FE × FE)} {ch : RAPChallenges FE} {c : List FE}
    (h : memoryPermutationColumn original sorted ch = .ok c) : c.length = min original.length sorted.length := by
  simp only [memoryPermutationColumn, Outcome.bind_eq_ok, Outcome.pure_eq, Outcome.ok.injEq] at h
  obtain ⟨d, hd, rfl⟩ := h
  unfold batchInverse at hd
  split at hd
  · cases hd
  cases hd
  simp [runningProducts_length']

/-- Adding the public memory fails in both builds, except that the release build may leave columns that are too
short for the rest of the computation. -/
theorem addPubMemory_release {addresses values : List FE} {pi : PublicInputs} (hv : values.length = addresses.length)
    (ha : addresses.length < 2 ^ 64) (hp : pi.publicMemory.length < 2 ^ 64)
    (ho : ∀ start stop, pi.memorySegments.get? .output = some (start, stop) → start < 2 ^ 64 ∧ stop < 2 ^ 64) :
    (addPubMemory addresses values pi = addPubMemoryRelease addresses values pi ∧
      ∀ r, addPubMemoryRelease addresses values pi = .ok r →
        r.1.length = addresses.length ∧ r.2.length = addresses.length) ∨
    (addPubMemory addresses values pi = .panic ∧
      ∀ r, addPubMemoryRelease addresses values pi = .ok r → r.1.length < addresses.length) := by
  set len := pi.publicMemory.length with hlen
  by_cases hle : len ≤ addresses.length
  swap
  · left
    have h1 : addPubMemory addresses values pi = .panic := by
      unfold addPubMemory
      rw [if_pos (by omega)]
    have h2 : addPubMemoryRelease addresses values pi = .panic := by
      unfold addPubMemoryRelease
      rw [← hlen]
      dsimp only
      rw [if_pos]
      unfold wrappingSub
      omega
    refine ⟨h1.trans h2.symm, ?_⟩
    rw [h2]
    rintro r ⟨⟩
  have hsec : wrappingSub addresses.length len = addresses.length - len := wrappingSub_of_le ha hle
  by_cases hgood : ∀ start stop, pi.memorySegments.get? .output = some (start, stop) →
      start ≤ stop ∧ stop - start ≤ len
  · left
    have haddrs : getPubMemoryAddrs (pi.memorySegments.get? .output) len =
          .ok (getPubMemoryAddrsRelease (pi.memorySegments.get? .output) len) ∧
        (getPubMemoryAddrsRelease (pi.memorySegments.get? .output) len).length = len := by
      unfold getPubMemoryAddrs getPubMemoryAddrsRelease
      cases h : pi.memorySegments.get? .output with
      | none => simp
      | some x =>
        obtain ⟨start, stop⟩ := x
        obtain ⟨h1, h2⟩ := hgood start stop h
        obtain ⟨h3, h4⟩ := ho start stop h
        dsimp only
        rw [if_pos ⟨h1, h2⟩, wrappingSub_of_le h4 h1, wrappingSub_of_le hp h2]
        refine ⟨rfl, ?_⟩
        simp
        omega
    have key : addPubMemory addresses values pi = addPubMemoryRelease addresses values pi := by
      unfold addPubMemory addPubMemoryRelease
      simp only [← hlen, hsec]
      rw [if_neg (by omega), if_neg (by omega), haddrs.1, Outcome.bind_ok]
      congr 1
      funext vals
      rw [haddrs.2, if_neg (by omega), List.drop_eq_nil_of_le (as := values) (by omega), List.append_nil]
    refine ⟨key, fun r hr => ?_⟩
    unfold addPubMemoryRelease at hr
    simp only [← hlen, hsec] at hr
    rw [if_neg (by omega)] at hr
    simp only [Outcome.bind_eq_ok] at hr
    obtain ⟨vals, hvals, hr⟩ := hr
    rw [haddrs.2, if_neg (by omega), Outcome.pure_eq, Outcome.ok.injEq] at hr
    subst hr
    have := (mapOutcome_mem hvals).1
    rw [haddrs.2] at this
    simp only [List.length_append, List.length_take, List.length_drop, haddrs.2, this]
    omega
  · right
    push Not at hgood
    obtain ⟨start, stop, hout, hbad⟩ := hgood
    obtain ⟨h3, h4⟩ := ho start stop hout
    refine ⟨?_, fun r hr => ?_⟩
    · unfold addPubMemory
      rw [← hlen]
      dsimp only
      rw [if_neg (by omega), hout]
      unfold getPubMemoryAddrs
      dsimp only
      rw [if_neg (by rintro ⟨h1, h2⟩; have := hbad h1; omega)]
      rfl
    · unfold addPubMemoryRelease at hr
      simp only [← hlen, hsec] at hr
      rw [if_neg (by omega)] at hr
      simp only [Outcome.bind_eq_ok] at hr
      obtain ⟨vals, hvals, hr⟩ := hr
      have haddrs : (getPubMemoryAddrsRelease (pi.memorySegments.get? .output) len).length =
          wrappingSub len (wrappingSub stop start) + (stop - start) := by
        rw [hout]
        simp [getPubMemoryAddrsRelease]
      split at hr
      · cases hr
      rename_i hfit
      rw [Outcome.pure_eq, Outcome.ok.injEq] at hr
      subst hr
      simp only [List.length_append, List.length_take, haddrs] at hfit ⊢
      unfold wrappingSub at hfit ⊢
      by_cases hss : start ≤ stop
      · have := hbad hss
        exfalso
        omega
      · omega

theorem getCols_length (rows : List (List FE)) (cols : List Nat) :
    (getCols rows cols).length = cols.length * rows.length := by
  unfold getCols
  induction rows with
  | nil => simp
  | cons r t ih => simp only [List.flatMap_cons, List.length_append, List.length_map, ih, List.length_cons]; ring

/-- The auxiliary trace of the two builds. -/
theorem buildAuxiliaryTrace_release {pi : PublicInputs} {rows : List (List FE)} (hr : 4 * rows.length < 2 ^ 64)
    (hp : pi.publicMemory.length < 2 ^ 64)
    (ho : ∀ start stop, pi.memorySegments.get? .output = some (start, stop) → start < 2 ^ 64 ∧ stop < 2 ^ 64)
    (ch : RAPChallenges FE) : buildAuxiliaryTrace pi rows ch = buildAuxiliaryTraceRelease pi rows ch := by
  have la : (getCols rows ADDR_COLUMNS).length = 4 * rows.length := getCols_length _ _
  have lv : (getCols rows VALUE_COLUMNS).length = 4 * rows.length := getCols_length _ _
  have hsort : ∀ l : List (FE × FE), (sortByAddress l).length = l.length := fun l => List.length_insertionSort _ _
  unfold buildAuxiliaryTrace buildAuxiliaryTraceRelease
  dsimp only
  rcases addPubMemory_release (addresses := getCols rows ADDR_COLUMNS) (values := getCols rows VALUE_COLUMNS)
    (pi := pi) (by rw [la, lv]) (by rw [la]; exact hr) hp ho with ⟨h, hlen⟩ | ⟨h, hlen⟩
  · rw [h]
    cases hx : addPubMemoryRelease (getCols rows ADDR_COLUMNS) (getCols rows VALUE_COLUMNS) pi with
    | panic => rfl
    | err e => exact e.elim
    | ok r =>
      obtain ⟨h1, h2⟩ := hlen r hx
      obtain ⟨a, v⟩ := r
      simp only [Outcome.bind_ok]
      cases hpc : memoryPermutationColumn ((getCols rows ADDR_COLUMNS).zip (getCols rows VALUE_COLUMNS))
        (sortByAddress (a.zip v)) ch with
      | panic => rfl
      | err e => exact e.elim
      | ok c =>
        have hc := memoryPermutationColumn_length hpc
        simp only [Outcome.bind_ok]
        congr 1
        funext rc
        simp only [hsort, List.length_zip, la, lv, h1, h2] at hc ⊢
        rw [if_neg (by omega)]
  · rw [h]
    symm
    show _ = Outcome.panic
    cases hx : addPubMemoryRelease (getCols rows ADDR_COLUMNS) (getCols rows VALUE_COLUMNS) pi with
    | panic => rfl
    | err e => exact e.elim
    | ok r =>
      have h1 := hlen r hx
      obtain ⟨a, v⟩ := r
      simp only [Outcome.bind_ok]
      cases hpc : memoryPermutationColumn ((getCols rows ADDR_COLUMNS).zip (getCols rows VALUE_COLUMNS))
        (sortByAddress (a.zip v)) ch with
      | panic => rfl
      | err e => exact e.elim
      | ok c =>
        simp only [Outcome.bind_ok]
        cases rangeCheckPermutationColumn (getCols rows [OFF_DST, OFF_OP0, OFF_OP1])
            ((sortNat ((getCols rows [OFF_DST, OFF_OP0, OFF_OP1]).map fun x => x.val % 2 ^ 16)).map
              fun n : Nat => (n : FE)) ch with
        | panic => rfl
        | err e => exact e.elim
        | ok rc =>
          simp only [Outcome.bind_ok]
          rw [if_pos]
          left
          rw [hsort, List.length_zip]
          simp only [la] at h1
          omega

theorem unwrapErr_ok {ε α : Type} {x : Outcome ε α} {a : α} (h : (x.unwrapErr : Run α) = .ok a) : x = .ok a := by
  cases x <;> simp_all [Outcome.unwrapErr]

theorem stepCells_agree {p : Prop} {mem : CairoMemory} {t : RegistersState} (h : p → ¬ CallOverflows mem t) :
    Agree p (stepCells mem t) (stepCellsRelease mem t) := by
  unfold stepCells stepCellsRelease
  refine Agree.bind' _ fun fo hfo => ?_
  obtain ⟨f, o⟩ := fo
  have hfo := unwrapErr_ok hfo
  dsimp only
  refine Agree.bind' _ fun _ _ => Agree.bind' _ fun _ _ => Agree.bind' _ fun _ _ => Agree.bind' _ fun _ _ => ?_
  refine Agree.bind ?_ fun _ _ => .inl rfl
  unfold updateValues updateValuesRelease
  cases hop : f.opcode with
  | call =>
    dsimp only
    by_cases hlt : t.pc + (if f.op1Src = .imm then 2 else 1) < 2 ^ 64
    · rw [if_pos hlt, Nat.mod_eq_of_lt hlt]
      exact .inl rfl
    · rw [if_neg hlt]
      exact .inr ⟨rfl, fun hp => h hp ⟨f, o, hfo, hop, not_lt.mp hlt⟩⟩
  | _ => exact .inl rfl

theorem buildMainTrace_agree {p : Prop} {mem : CairoMemory} {states : List RegistersState} {pi : PublicInputs}
    (h : p → ∀ t ∈ states, ¬ CallOverflows mem t) :
    Agree p (buildMainTrace states mem pi) (buildMainTraceRelease states mem pi) := by
  unfold buildMainTrace buildMainTraceRelease
  refine Agree.bind ?_ fun _ _ => .inl rfl
  unfold buildCairoExecutionTrace buildCairoExecutionTraceRelease
  refine Agree.bind (Agree.mapOutcome₂ fun t ht => stepCells_agree fun hp => h hp t ht) fun _ _ => .inl rfl

end ExecTrace
end Verif
