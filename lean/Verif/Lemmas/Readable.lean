import Verif.Spec.Readable
import Verif.Lemmas.NoPanic

/-!
# Lemmas: exactly when the steps of the verifier answer
-/

namespace Verif
open Polynomial Spec
variable {F T Ch : Type} [Field F] [DecidableEq F] {env : Env F T}

omit [Field F] [DecidableEq F] in
/-- A loop whose steps answer whatever the state is, or never. -/
theorem foldlM_answers {α σ : Type} {f : σ → α → Outcome Empty σ} {P : α → Prop} {l : List α}
    (h : ∀ a ∈ l, ∀ s, (∃ s', f s a = .ok s') ↔ P a) (s : σ) :
    (∃ s', l.foldlM f s = .ok s') ↔ ∀ a ∈ l, P a := by
  induction l generalizing s with
  | nil => simp [List.foldlM, pure]
  | cons a t ih =>
    rw [List.foldlM_cons]
    constructor
    · rintro ⟨r, hr⟩
      rw [Outcome.bind_eq_ok] at hr
      obtain ⟨s1, h1, h2⟩ := hr
      intro x hx
      rcases List.mem_cons.1 hx with rfl | hx
      · exact (h x (by simp) s).1 ⟨s1, h1⟩
      · exact (ih (fun a ha => h a (by simp [ha])) s1).1 ⟨r, h2⟩ x hx
    · intro hP
      obtain ⟨s1, h1⟩ := (h a (by simp) s).2 (hP a (by simp))
      obtain ⟨r, h2⟩ := (ih (fun a ha => h a (by simp [ha])) s1).2 fun x hx => hP x (by simp [hx])
      exact ⟨r, by rw [h1, Outcome.bind_ok, h2]⟩

omit [Field F] [DecidableEq F] in
theorem frame_row {frame : Frame F} {i : Nat} (hw : 0 < frame.rowWidth)
    (hi : i < frame.data.length / frame.rowWidth) :
    ∃ row : List F, (frame.getRow i : Outcome Empty _) = .ok row ∧ row.length = frame.rowWidth := by
  unfold Frame.getRow subslice
  have h1 : (i + 1) * frame.rowWidth ≤ frame.data.length := (Nat.le_div_iff_mul_le hw).1 hi
  rw [Nat.add_mul, Nat.one_mul] at h1
  rw [if_pos ⟨by omega, h1⟩]
  exact ⟨_, rfl, by simp; omega⟩

omit [DecidableEq F] in
theorem appendFrame_answers (frame : Frame F) (t : T) :
    (∃ t', appendFrame env frame t = .ok t') ↔ frame.rowWidth ≠ 0 := by
  unfold appendFrame Frame.numRows
  by_cases hw : frame.rowWidth = 0
  · rw [if_pos hw]
    constructor
    · rintro ⟨t', ht⟩
      cases ht
    · intro h
      exact absurd hw h
  · rw [if_neg hw, Outcome.bind_ok]
    refine ⟨fun _ => hw, fun _ => (foldlM_answers (P := fun _ => True) (fun i hi s => ?_) t).2 fun _ _ => trivial⟩
    obtain ⟨row, hrow, -⟩ := frame_row (Nat.pos_of_ne_zero hw) (List.mem_range.1 hi)
    rw [hrow, Outcome.bind_ok]
    exact ⟨fun _ => trivial, fun _ => ⟨_, rfl⟩⟩

omit [Field F] [DecidableEq F] in
theorem first_row {frame : Frame F} {c : Nat} :
    (∃ v, (do let row ← (frame.getRow 0 : Outcome Empty _)
              index row c) = .ok v) ↔ c < frame.rowWidth ∧ frame.rowWidth ≤ frame.data.length := by
  unfold Frame.getRow subslice
  by_cases h : frame.rowWidth ≤ frame.data.length
  · rw [if_pos (by omega), Outcome.bind_ok]
    simp only [index_eq_ok]
    rw [← Option.isSome_iff_exists, Option.isSome_iff_ne_none, ne_eq, List.getElem?_eq_none_iff]
    simp only [List.length_take, List.length_drop]
    omega
  · rw [if_neg (by omega)]
    constructor
    · rintro ⟨v, hv⟩
      cases hv
    · intro ⟨_, h'⟩
      exact absurd h' h

theorem oodBoundary_answers {ta : TwoAdic F} {d : Domain F} {a b : Nat} {h g w z : F}
    (D : IsDomain ta d a b h g w) (hz : z ^ 2 ^ a ≠ 1) (proof : StarkProof F) (boundary : List (BoundaryConstraint F))
    (coeffs : List (F × F)) (adj : Nat) :
    (∃ v, oodBoundary proof boundary d z coeffs adj = .ok v) ↔
      ∀ c ∈ boundary, c.col < proof.traceOodFrameEvaluations.rowWidth ∧
        proof.traceOodFrameEvaluations.rowWidth ≤ proof.traceOodFrameEvaluations.data.length := by
  constructor
  · rintro ⟨v, hv⟩ c hc
    unfold oodBoundary at hv
    rw [Outcome.bind_eq_ok] at hv
    obtain ⟨pairs, hp, -⟩ := hv
    obtain ⟨i, hi, rfl⟩ := List.getElem_of_mem hc
    obtain ⟨hl, hg⟩ := mapOutcome_mem hp
    have := hg i hi (by omega)
    simp only [Outcome.bind_eq_ok] at this
    obtain ⟨row, hrow, v, hv, -⟩ := this
    exact first_row.1 ⟨v, by rw [hrow, Outcome.bind_ok, hv]⟩
  · intro hcols
    cases boundary with
    | nil => exact ⟨_, rfl⟩
    | cons c0 t =>
      obtain ⟨hc0, hlen⟩ := hcols c0 (by simp)
      obtain ⟨row, hrow, hrl⟩ := frame_row (frame := proof.traceOodFrameEvaluations) (i := 0) (by omega)
        (Nat.div_pos hlen (by omega))
      exact ⟨_, oodBoundary_ok D hz hrow (fun c hc => hrl ▸ (hcols c hc).1) coeffs 0 adj⟩

/-- The second step answers exactly when the frame can be read. -/
theorem step2_answers {ta : TwoAdic F} {d : Domain F} {a b : Nat} {h g w : F} (D : IsDomain ta d a b h g w)
    {air : Air F Ch} (hfit : Fits air) (hn : air.traceLength = 2 ^ a) {proof : StarkProof F} {c : Challenges F Ch}
    (hz : c.z ^ 2 ^ a ≠ 1) {boundary : List (BoundaryConstraint F)}
    (hb : air.boundaryConstraints c.rapChallenges = .ok boundary) :
    (∃ r, step2 air proof d c = .ok r) ↔
      FrameReadable air boundary proof.traceOodFrameEvaluations c.rapChallenges := by
  unfold FrameReadable
  rw [← oodBoundary_answers D hz proof boundary c.boundaryCoeffs (air.compositionPolyDegreeBound - air.traceLength)]
  unfold step2
  obtain ⟨m, hm⟩ := hfit.max
  obtain ⟨me, hme⟩ := hfit.maxExemption
  have hpos : 0 < 2 ^ a := by positivity
  obtain ⟨l, hl1, hl2, hl3⟩ := transitionExemptionsVerifier_eq (g := g) D.g_primitive.pow_eq_one hpos hme
  have hlast : d.traceRootsOfUnity.getLast? = some (g ^ (2 ^ a - 1)) := by
    rw [D.traceRoots, List.getLast?_map, List.getLast?_range, if_neg (by omega)]; rfl
  have hadj := hfit.adjustments hm (f := fun k => c.z ^ k)
  rw [hb, Outcome.bind_ok]
  simp only [checkedSub, if_pos hfit.bound_ge, Outcome.bind_ok]
  constructor
  · rintro ⟨r, hr⟩
    rw [Outcome.bind_eq_ok] at hr
    obtain ⟨v, hv, hr⟩ := hr
    rw [Outcome.bind_eq_ok] at hr
    obtain ⟨evals, he, -⟩ := hr
    exact ⟨⟨v, hv⟩, evals, he⟩
  · rintro ⟨⟨v, hv⟩, evals, he⟩
    rw [hv, Outcome.bind_ok, he, Outcome.bind_ok]
    simp only [invOrPanic, hn, if_neg (sub_ne_zero.mpr hz), Outcome.bind_ok, hlast, Outcome.ofOptionUnwrap, hl1,
      hm]
    simp only [hn, checkedSub] at hadj
    rw [hadj, Outcome.bind_ok, oodTransition_ok hfit hn hm hme hl3, Outcome.bind_ok, Outcome.pure_eq]
    exact ⟨_, rfl⟩

omit [DecidableEq F] in
theorem layerItems_length (proof : StarkProof F) (q : FriDecommitment F) (p : F) :
    (layerItems proof q p).length = answeredLayers proof q := by
  unfold layerItems answeredLayers
  simp only [List.length_zip, List.length_range, List.length_map]
  omega

theorem verifyQuery_answers {proof : StarkProof F} {zetas : List F} {iota : Nat} {q : FriDecommitment F}
    {d : Domain F} {p two : F} (hz : zetas.length = proof.friLayersMerkleRoots.length) :
    (∃ r, verifyQuery env proof zetas iota q d p two = .ok r) ↔
      q.layersEvaluations ≠ [] ∧ answeredLayers proof q ≤ d.ldeRootOrder + 1 := by
  unfold verifyQuery
  cases hq : q.layersEvaluations with
  | nil =>
    constructor
    · rintro ⟨r, hr⟩
      cases hr
    · intro h
      exact absurd rfl h.1
  | cons v l =>
    have hpos : 1 ≤ q.layersEvaluations.length := by rw [hq]; simp
    rw [show (index (v :: l) 0 : Outcome Empty F) = .ok v from rfl, Outcome.bind_ok]
    have hstep : ∀ item ∈ layerItems proof q p, ∀ s, (∃ s', verifyLayer env proof zetas iota q d two s item = .ok s') ↔
        item.1.1.1.1.1.1 ≤ d.ldeRootOrder := by
      intro item hitem s
      obtain ⟨k, hk⟩ := List.mem_iff_getElem?.1 hitem
      obtain ⟨hik, hroot, -, -, -, -, -⟩ := layerItems_getElem?.mp hk
      have hk' := (List.getElem?_eq_some_iff.mp hroot).1
      unfold verifyLayer
      simp only [hik]
      constructor
      · rintro ⟨s', hs⟩
        rw [Outcome.bind_eq_ok] at hs
        obtain ⟨e, he, -⟩ := hs
        exact (checkedSub_ok.mp he).1
      · intro hle
        rw [show (checkedSub d.ldeRootOrder k : Outcome Empty Nat) = .ok (d.ldeRootOrder - k) from
          checkedSub_ok.mpr ⟨hle, rfl⟩, Outcome.bind_ok,
          index_ok (List.getElem?_eq_getElem (by omega : k < zetas.length)),
          Outcome.bind_ok, show (checkedSub q.layersEvaluations.length 1 : Outcome Empty Nat) = .ok _ from
          checkedSub_ok.mpr ⟨hpos, rfl⟩, Outcome.bind_ok]
        split
        next hlt =>
          rw [index_ok (List.getElem?_eq_getElem (by omega : k + 1 < q.layersEvaluations.length)), Outcome.bind_ok]
          exact ⟨_, rfl⟩
        · exact ⟨_, rfl⟩
    have hfold := foldlM_answers hstep (true, v)
    have hall : (∀ item ∈ layerItems proof q p, item.1.1.1.1.1.1 ≤ d.ldeRootOrder) ↔
        answeredLayers proof q ≤ d.ldeRootOrder + 1 := by
      rw [← layerItems_length proof q p]
      constructor
      · intro h
        by_contra hc
        have hlt : d.ldeRootOrder + 1 < (layerItems proof q p).length := by omega
        have h1 := h _ (List.getElem_mem hlt)
        have h2 := (layerItems_getElem?.mp (List.getElem?_eq_getElem hlt)).1
        omega
      · intro h item hitem
        obtain ⟨k, hk⟩ := List.mem_iff_getElem?.1 hitem
        have h1 := (layerItems_getElem?.mp hk).1
        have h2 := (List.getElem?_eq_some_iff.mp hk).1
        omega
    rw [hall] at hfold
    constructor
    · rintro ⟨r, hr⟩
      rw [Outcome.bind_eq_ok] at hr
      obtain ⟨s, hs, -⟩ := hr
      exact ⟨by simp, hfold.1 ⟨s, hs⟩⟩
    · rintro ⟨-, h⟩
      obtain ⟨s, hs⟩ := hfold.2 h
      rw [hs]
      exact ⟨_, rfl⟩

/-- The third step answers exactly when the answers to the queries can be read. -/
theorem step3_answers {d : Domain F} {a b : Nat} {h g w : F} (D : IsDomain env.ta d a b h g w) (hh : h ≠ 0)
    {c : Challenges F Ch} (hi : ∀ i ∈ c.iotas, i < 2 ^ d.ldeRootOrder) {proof : StarkProof F}
    (hlen : c.iotas.length ≤ proof.queryList.length)
    (hz : c.zetas.length = proof.friLayersMerkleRoots.length) :
    (∃ r, step3 env proof d c = .ok r) ↔ QueriesReadable proof c.iotas.length (a + b) := by
  unfold step3
  simp only [invOrPanic, if_neg D.two_ne, Outcome.bind_ok]
  rw [mapOutcome_eq_map (g := fun i => w ^ i * h), Outcome.bind_ok, batchInverse_ok, Outcome.bind_ok]
  · rw [foldlM_answers (P := fun x => x.1.1.layersEvaluations ≠ [] ∧ answeredLayers proof x.1.1 ≤ a + b + 1)]
    · unfold QueriesReadable
      constructor
      · intro hall q hq
        obtain ⟨i, hi', rfl⟩ := List.getElem_of_mem hq
        rw [List.length_take] at hi'
        rw [List.getElem_take]
        have hi1 : i < c.iotas.length := by omega
        refine hall ((proof.queryList[i]'(by omega), c.iotas[i]), (w ^ c.iotas[i] * h)⁻¹) ?_
        refine List.mem_iff_getElem?.2 ⟨i, ?_⟩
        rw [List.getElem?_zip_eq_some, List.getElem?_zip_eq_some]
        simp [hi1, (by omega : i < proof.queryList.length)]
      · intro hall x hx
        obtain ⟨i, hi'⟩ := List.mem_iff_getElem?.1 hx
        rw [List.getElem?_zip_eq_some, List.getElem?_zip_eq_some] at hi'
        obtain ⟨⟨h1, h2⟩, -⟩ := hi'
        refine hall x.1.1 (List.mem_iff_getElem?.2 ⟨i, ?_⟩)
        rw [List.getElem?_take, if_pos (List.getElem?_eq_some_iff.1 h2).1, h1]
    · intro x _ s
      have := verifyQuery_answers (env := env) (iota := x.1.2) (q := x.1.1) (d := d) (p := x.2) (two := 2⁻¹) hz
      rw [D.ldeRootOrder] at this
      rw [← this]
      constructor
      · rintro ⟨s', hs⟩
        rw [Outcome.bind_eq_ok] at hs
        obtain ⟨r, hr, -⟩ := hs
        exact ⟨r, hr⟩
      · rintro ⟨r, hr⟩
        rw [hr]
        exact ⟨_, rfl⟩
  · intro x hx
    obtain ⟨i, -, rfl⟩ := List.mem_map.mp hx
    exact mul_ne_zero (pow_ne_zero _ D.w_ne) hh
  · intro i hi'
    have := hi i hi'
    rw [D.ldeRootOrder] at this
    rw [index_ok (D.lde_getElem? this)]

/-- The DEEP value of an opening can be computed exactly when the opening has the columns of the frame, if this has a
row. -/
theorem reconstructDeep_answers {air : Air F Ch} {c : Challenges F Ch} {proof : StarkProof F}
    (hw : proof.traceOodFrameEvaluations.rowWidth ≠ 0) (hoff : 0 < air.context.transitionOffsets.length)
    (hc1 : c.traceTermCoeffs.length = air.context.traceColumns)
    (hc2 : ∀ r ∈ c.traceTermCoeffs, r.length = air.context.transitionOffsets.length) {inv : F} {divisors : List F}
    (hdiv : divisors.length = proof.traceOodFrameEvaluations.data.length / proof.traceOodFrameEvaluations.rowWidth)
    {i : Nat} {o : DeepPolynomialOpenings F} (ho : proof.deepPolyOpenings[i]? = some o) :
    (∃ v, reconstructDeep proof c inv divisors i = .ok v) ↔
      (proof.traceOodFrameEvaluations.rowWidth ≤ proof.traceOodFrameEvaluations.data.length →
        min proof.traceOodFrameEvaluations.rowWidth air.context.traceColumns ≤ o.ldeTraceEvaluations.length) := by
  unfold reconstructDeep
  rw [index_ok ho, Outcome.bind_ok]
  simp only
  set frame := proof.traceOodFrameEvaluations with hframe
  have hpos : 0 < frame.rowWidth := Nat.pos_of_ne_zero hw
  have hnum : (frame.numRows : Outcome Empty Nat) = .ok (frame.data.length / frame.rowWidth) := by
    unfold Frame.numRows
    rw [if_neg hw]
  have hinner : ∀ x ∈ (List.range frame.rowWidth).zip c.traceTermCoeffs, ∀ s : F, (∃ s', (do
      let rows ← (frame.numRows : Outcome Empty Nat)
      let v ← ((List.range rows).zip x.2).foldlM (fun (acc : F) (y : Nat × F) => do
        let t ← (index o.ldeTraceEvaluations x.1 : Outcome Empty F)
        let row ← frame.getRow y.1
        let ov ← index row x.1
        let d ← index divisors y.1
        return acc + (t - ov) * d * y.2) 0
      return s + v) = .ok s') ↔
      (0 < frame.data.length / frame.rowWidth → x.1 < o.ldeTraceEvaluations.length) := by
    intro x hx s
    rw [hnum, Outcome.bind_ok]
    have hx1 : x.1 < frame.rowWidth := List.mem_range.1 (List.of_mem_zip hx).1
    have hx2 : x.2.length = air.context.transitionOffsets.length := hc2 _ (List.of_mem_zip hx).2
    have hf := foldlM_answers (P := fun _ => x.1 < o.ldeTraceEvaluations.length)
      (l := (List.range (frame.data.length / frame.rowWidth)).zip x.2) (f := fun (acc : F) (y : Nat × F) => do
        let t ← (index o.ldeTraceEvaluations x.1 : Outcome Empty F)
        let row ← frame.getRow y.1
        let ov ← index row x.1
        let d ← index divisors y.1
        return acc + (t - ov) * d * y.2) (fun y hy acc => by
          have hy1 : y.1 < frame.data.length / frame.rowWidth := List.mem_range.1 (List.of_mem_zip hy).1
          obtain ⟨row, hrow, hrl⟩ := frame_row hpos hy1
          constructor
          · rintro ⟨s', hs⟩
            rw [Outcome.bind_eq_ok] at hs
            obtain ⟨t, ht, -⟩ := hs
            exact (List.getElem?_eq_some_iff.1 (index_eq_ok.1 ht)).1
          · intro hlt
            rw [index_ok (List.getElem?_eq_getElem hlt), Outcome.bind_ok, hrow, Outcome.bind_ok,
              index_ok (List.getElem?_eq_getElem (by omega : x.1 < row.length)), Outcome.bind_ok,
              index_ok (List.getElem?_eq_getElem (by omega : y.1 < divisors.length)), Outcome.bind_ok]
            exact ⟨_, rfl⟩) 0
    have hall : (∀ y ∈ (List.range (frame.data.length / frame.rowWidth)).zip x.2, x.1 < o.ldeTraceEvaluations.length) ↔
        (0 < frame.data.length / frame.rowWidth → x.1 < o.ldeTraceEvaluations.length) := by
      constructor
      · intro h h0
        refine h _ (List.getElem_mem (n := 0) ?_)
        simp only [List.length_zip, List.length_range]
        omega
      · intro h y hy
        have hy1 : y.1 < frame.data.length / frame.rowWidth := List.mem_range.1 (List.of_mem_zip hy).1
        exact h (by omega)
    rw [hall] at hf
    rw [← hf]
    constructor
    · rintro ⟨s', hs⟩
      rw [Outcome.bind_eq_ok] at hs
      obtain ⟨v, hv, -⟩ := hs
      exact ⟨v, hv⟩
    · rintro ⟨v, hv⟩
      rw [hv]
      exact ⟨_, rfl⟩
  have houter := foldlM_answers hinner 0
  have hall : (∀ x ∈ (List.range frame.rowWidth).zip c.traceTermCoeffs,
      (0 < frame.data.length / frame.rowWidth → x.1 < o.ldeTraceEvaluations.length)) ↔
      (frame.rowWidth ≤ frame.data.length →
        min frame.rowWidth air.context.traceColumns ≤ o.ldeTraceEvaluations.length) := by
    constructor
    · intro h hle
      by_contra hc
      have hlt : o.ldeTraceEvaluations.length < ((List.range frame.rowWidth).zip c.traceTermCoeffs).length := by
        simp only [List.length_zip, List.length_range, hc1]
        omega
      have := h _ (List.getElem_mem hlt) (Nat.div_pos hle hpos)
      simp at this
    · intro h x hx h0
      have hle : frame.rowWidth ≤ frame.data.length := by
        by_contra hc
        rw [Nat.div_eq_of_lt (by omega)] at h0
        omega
      obtain ⟨k, hk⟩ := List.mem_iff_getElem?.1 hx
      rw [List.getElem?_zip_eq_some] at hk
      obtain ⟨h1, h2⟩ := hk
      obtain ⟨hk1, hk1'⟩ := List.getElem?_eq_some_iff.1 h1
      have hk2 := (List.getElem?_eq_some_iff.1 h2).1
      rw [List.getElem_range] at hk1'
      rw [List.length_range] at hk1
      have := h hle
      omega
  rw [hall] at houter
  rw [← houter]
  constructor
  · rintro ⟨s', hs⟩
    rw [Outcome.bind_eq_ok] at hs
    obtain ⟨v, hv, -⟩ := hs
    exact ⟨v, hv⟩
  · rintro ⟨v, hv⟩
    rw [hv]
    exact ⟨_, rfl⟩

/-- The fourth step answers exactly when the square of the out-of-domain point is not queried and the openings can be
read. -/
theorem step4_answers {air : Air F Ch} {d : Domain F} {a b : Nat} {h g w : F} (D : IsDomain env.ta d a b h g w)
    (hfit : Fits air) {c : Challenges F Ch} (hi : ∀ i ∈ c.iotas, i < 2 ^ d.ldeRootOrder)
    (hz : c.z ∉ d.ldeRootsOfUnityCoset) {proof : StarkProof F}
    (hw : proof.traceOodFrameEvaluations.rowWidth ≠ 0)
    (hc1 : c.traceTermCoeffs.length = air.context.traceColumns)
    (hc2 : ∀ r ∈ c.traceTermCoeffs, r.length = air.context.transitionOffsets.length)
    (hlen : c.iotas.length ≤ proof.queryList.length)
    (hq : ∀ q ∈ proof.queryList.take c.iotas.length, q.layersEvaluations ≠ []) :
    (∃ r, step4 env air proof d c = .ok r) ↔
      (∀ i ∈ c.iotas, d.ldeRootsOfUnityCoset[i]? ≠ some (c.z ^ 2)) ∧ OpeningsReadable air proof c.iotas.length := by
  have hnum : (proof.traceOodFrameEvaluations.numRows : Outcome Empty Nat)
      = .ok (proof.traceOodFrameEvaluations.data.length / proof.traceOodFrameEvaluations.rowWidth) := by
    unfold Frame.numRows
    rw [if_neg hw]
  have hpt : ∀ i ∈ c.iotas, d.ldeRootsOfUnityCoset[i]? = some (w ^ i * h) := by
    intro i hi'
    have := hi i hi'
    rw [D.ldeRootOrder] at this
    exact D.lde_getElem? this
  unfold step4
  rw [D.rootOrder, getRoot_ok.mpr D.hg, Outcome.bind_ok]
  simp only
  rw [mapOutcome_eq_map (g := fun i => w ^ i * h - c.z ^ 2), Outcome.bind_ok]
  swap
  · intro i hi'
    rw [index_ok (hpt i hi'), Outcome.bind_ok, Outcome.pure_eq]
  by_cases hsq : ∀ i ∈ c.iotas, d.ldeRootsOfUnityCoset[i]? ≠ some (c.z ^ 2)
  swap
  · constructor
    · rintro ⟨r, hr⟩
      exfalso
      push Not at hsq
      obtain ⟨i, hi', he⟩ := hsq
      rw [hpt i hi'] at he
      have : (0 : F) ∈ c.iotas.map fun i => w ^ i * h - c.z ^ 2 :=
        List.mem_map.2 ⟨i, hi', sub_eq_zero.2 (Option.some.inj he)⟩
      unfold batchInverse at hr
      rw [if_pos this] at hr
      cases hr
    · intro h'
      exact absurd h'.1 hsq
  rw [show ((∀ i ∈ c.iotas, d.ldeRootsOfUnityCoset[i]? ≠ some (c.z ^ 2)) ∧ OpeningsReadable air proof c.iotas.length) ↔
    OpeningsReadable air proof c.iotas.length from and_iff_right hsq]
  rw [batchInverse_ok, Outcome.bind_ok]
  swap
  · intro x hx
    obtain ⟨i, hi', rfl⟩ := List.mem_map.mp hx
    refine sub_ne_zero.mpr fun he => hsq i hi' ?_
    rw [hpt i hi', he]
  rw [foldlM_answers (P := fun x : Nat × ((Nat × DeepPolynomialOpenings F) × F) =>
    air.context.traceColumns - air.numberAuxiliaryRapColumns ≤ x.2.1.2.ldeTraceEvaluations.length ∧
    (proof.traceOodFrameEvaluations.rowWidth ≤ proof.traceOodFrameEvaluations.data.length →
      min proof.traceOodFrameEvaluations.rowWidth air.context.traceColumns ≤ x.2.1.2.ldeTraceEvaluations.length))]
  · unfold OpeningsReadable
    constructor
    · intro hall o ho
      obtain ⟨i, hi', rfl⟩ := List.getElem_of_mem ho
      rw [List.length_take] at hi'
      rw [List.getElem_take]
      have hi1 : i < c.iotas.length := by omega
      have hi2 : i < proof.deepPolyOpenings.length := by omega
      refine hall (i, ((c.iotas[i], proof.deepPolyOpenings[i]), (w ^ c.iotas[i] * h - c.z ^ 2)⁻¹)) ?_
      refine List.mem_iff_getElem?.2 ⟨i, ?_⟩
      rw [List.getElem?_zip_eq_some, List.getElem?_zip_eq_some, List.getElem?_zip_eq_some]
      refine ⟨?_, ⟨by simp [hi1], by simp [hi2]⟩, by simp [hi1]⟩
      rw [List.getElem?_range (by simp; omega)]
    · intro hall x hx
      obtain ⟨i, hi'⟩ := List.mem_iff_getElem?.1 hx
      rw [List.getElem?_zip_eq_some, List.getElem?_zip_eq_some, List.getElem?_zip_eq_some] at hi'
      obtain ⟨-, ⟨h1, h2⟩, -⟩ := hi'
      refine hall x.2.1.2 (List.mem_iff_getElem?.2 ⟨i, ?_⟩)
      rw [List.getElem?_take, if_pos (List.getElem?_eq_some_iff.1 h1).1, h2]
  · rintro ⟨i, ⟨iota, o⟩, inv⟩ hx s
    obtain ⟨k, hk⟩ := List.mem_iff_getElem?.mp hx
    rw [List.getElem?_zip_eq_some, List.getElem?_zip_eq_some, List.getElem?_zip_eq_some] at hk
    obtain ⟨hki, ⟨hkiota, hko⟩, -⟩ := hk
    obtain ⟨hklt, hki⟩ := List.getElem?_eq_some_iff.mp hki
    rw [List.getElem_range] at hki
    subst hki
    have hkl : k < c.iotas.length := (List.getElem?_eq_some_iff.mp hkiota).1
    have hiota := hi iota (List.mem_of_getElem? hkiota)
    rw [D.ldeRootOrder] at hiota
    have hkq : k < proof.queryList.length := hkl.trans_le hlen
    have hqk : proof.queryList[k].layersEvaluations ≠ [] := hq _ (by
      refine List.mem_iff_getElem?.2 ⟨k, ?_⟩
      rw [List.getElem?_take, if_pos hkl, List.getElem?_eq_getElem hkq])
    unfold verifyDeepAt
    simp only
    rw [show (checkedSub air.context.traceColumns air.numberAuxiliaryRapColumns : Outcome Empty Nat)
      = .ok (air.context.traceColumns - air.numberAuxiliaryRapColumns) from checkedSub_ok.mpr ⟨hfit.aux_le, rfl⟩,
      Outcome.bind_ok]
    by_cases hmain : air.context.traceColumns - air.numberAuxiliaryRapColumns ≤ o.ldeTraceEvaluations.length
    swap
    · constructor
      · rintro ⟨r, hr⟩
        exfalso
        unfold subslice at hr
        rw [if_neg (by omega)] at hr
        cases hr
      · intro h'
        exact absurd h'.1 hmain
    have hsub : (subslice o.ldeTraceEvaluations 0 (air.context.traceColumns - air.numberAuxiliaryRapColumns)
        : Outcome Empty _) = .ok ((o.ldeTraceEvaluations.drop 0).take
          (air.context.traceColumns - air.numberAuxiliaryRapColumns - 0)) := by
      unfold subslice
      rw [if_pos ⟨by omega, by omega⟩]
    rw [hsub, Outcome.bind_ok, hnum, Outcome.bind_ok,
      mapOutcome_eq_map (g := fun r => w ^ iota * h - c.z * g ^ r), Outcome.bind_ok, batchInverse_ok, Outcome.bind_ok]
    · have hdeep := reconstructDeep_answers (air := air) hw hfit.offsets_pos hc1 hc2 (inv := inv)
        (divisors := ((List.range (proof.traceOodFrameEvaluations.data.length
          / proof.traceOodFrameEvaluations.rowWidth)).map fun r => w ^ iota * h - c.z * g ^ r).map (·⁻¹))
        (by simp) hko
      simp only [hmain, true_and]
      rw [← hdeep]
      constructor
      · rintro ⟨r, hr⟩
        rw [Outcome.bind_eq_ok] at hr
        obtain ⟨v, hv, -⟩ := hr
        exact ⟨v, hv⟩
      · rintro ⟨v, hv⟩
        rw [hv, Outcome.bind_ok, index_ok (List.getElem?_eq_getElem hkq), Outcome.bind_ok,
          index_ok (List.getElem?_eq_getElem (List.length_pos_of_ne_nil hqk)), Outcome.bind_ok]
        exact ⟨_, rfl⟩
    · intro x hx
      obtain ⟨r, -, rfl⟩ := List.mem_map.mp hx
      exact D.mul_g_notMem_lde hz iota r
    · intro r _
      rw [index_ok (D.lde_getElem? hiota), Outcome.bind_ok, Outcome.pure_eq]

end Verif
