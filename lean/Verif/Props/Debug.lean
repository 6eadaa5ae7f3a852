import Verif.Lemmas.Debug
import Verif.Lemmas.Parallel
import Verif.Props.Validate
import Verif.Props.Stark
import Verif.Lemmas.NoPanic
import Mathlib.Algebra.Polynomial.FieldDivision

/-!
# C69 and C70: debug builds, and traces that do not satisfy the constraints
-/

namespace Verif.Props
open Polynomial Spec TraceTable
variable {F T Ch : Type} [Field F] [DecidableEq F] {env : Env F T}

/-- **C69**: for every input, when the debug build returns a proof the release build returns the same proof, and
the debug build has reported no boundary polynomial. -/
theorem C69_same_proof {PI : Type} {new : AirNew F Ch PI} {trace : TraceTable F} {pi : PI} {options : ProofOptions}
    {proof : StarkProof F} {valid : Bool} {reports : List Nat}
    (h : proveDebug env new trace pi options = .ok (proof, valid, reports)) :
    prove env new trace pi options = .ok proof ∧ reports = [] := by
  unfold proveDebug round2Debug checkBoundaryPolysDivisibility at h
  simp only [Outcome.bind_eq_ok, Outcome.pure_eq, Outcome.ok.injEq, Prod.mk.injEq] at h
  obtain ⟨air, h1, d, h2, r1, h3, v, -, bd, h4, r2, ⟨_, ⟨_, e1, rfl⟩, r2', h5, rfl⟩, z, h6, r4, h7, rfl, rfl, rfl⟩ := h
  obtain rfl := Outcome.ok.inj e1
  refine ⟨?_, rfl⟩
  unfold prove
  simp only [Outcome.bind_eq_ok, Outcome.pure_eq, Outcome.ok.injEq]
  exact ⟨air, h1, d, h2, r1, round1Debug_ok h3, bd, h4, r2', h5, z, h6, r4, h7, rfl⟩

/-- **C69**: in the setting of a run, for a rectangular trace that need not satisfy the constraints, when the release
build returns a proof the debug build returns the same proof, and the validation it logs succeeds exactly when the
trace, with its auxiliary columns, satisfies the AIR for the challenges drawn. -/
theorem C69_debug_succeeds {PI : Type} {new : AirNew F Ch PI} {pi : PI} {options : ProofOptions} {air : Air F Ch}
    {a b : Nat} (S : Setting air a b) (hair : new (2 ^ a) pi options = .ok air) {rows : List (List F)} {k : Nat}
    (hk : 0 < k) (hrows : rows.length = 2 ^ a) (hr : ∀ r ∈ rows, r.length = k)
    (hc : ∀ ch, ∃ cs, PolynomialConstraints air ch cs)
    (hdecl : ∀ ch, Declared air (2 ^ a) air.context.traceColumns ch)
    (haux : ∀ ch aux, air.buildAuxiliaryTrace (ofRows rows k) ch = .ok aux → ∃ full, JoinedRows air rows k aux full)
    {proof : StarkProof F} (h : prove env new (ofRows rows k) pi options = .ok proof) :
    ∃ valid d r1 t aux full, proveDebug env new (ofRows rows k) pi options = .ok (proof, valid, []) ∧
      Domain.new env.ta air = .ok d ∧ round1 env air (ofRows rows k) d env.tr.init = .ok (r1, t) ∧
      air.buildAuxiliaryTrace (ofRows rows k) r1.rapChallenges = .ok aux ∧ JoinedRows air rows k aux full ∧
      (valid = true ↔ Satisfies air full air.context.traceColumns r1.rapChallenges) := by
  have hn : (ofRows rows k).nRows = 2 ^ a := by rw [nRows_ofRows rows k hk hr, hrows]
  unfold prove at h
  simp only [Outcome.bind_eq_ok, Outcome.pure_eq, Outcome.ok.injEq] at h
  obtain ⟨air', h1, d, h2, ⟨r1, t⟩, h3, bd, h4, r2, h5, z, h6, r4, h7, rfl⟩ := h
  rw [hn, hair] at h1
  obtain rfl := Outcome.ok.inj h1
  obtain ⟨g, w, D⟩ := domain_new S.rows S.length S.blowup h2
  obtain ⟨-, -, -, -, -, aux, hauxok, hor⟩ := round1_ok D hk hrows hr h3
  obtain ⟨full, hfull⟩ := haux _ _ hauxok
  obtain ⟨R1, hplen⟩ : IsRound1 env a b (air.context.proofOptions.cosetOffset : F) g w full r1 ∧
      r1.tracePolys.length = air.context.traceColumns := by
    rcases hfull with ⟨h0, hkk, rfl⟩ | ⟨auxRows, h0, htab, hl1, hl2, hkk, rfl⟩
    · rcases hor with ⟨-, R1, hp⟩ | ⟨hpos, -⟩
      · exact ⟨R1, by rw [hp, hkk]⟩
      · omega
    · rcases hor with ⟨h00, -, -⟩ | ⟨-, hall⟩
      · omega
      · obtain ⟨R1, hp⟩ := hall auxRows (by
          cases aux
          simp only at htab
          subst htab
          rfl) (by rw [hl1, hrows]) hl2
        exact ⟨R1, by rw [hp, hkk]⟩
  have hv := validateTrace_eq air r1.tracePolys g (2 ^ a) r1.rapChallenges (by rw [hplen]; exact S.fits.columns_pos)
  rw [← R1.values, hplen] at hv
  have hlen : full.length = 2 ^ a := by rw [R1.values]; simp
  have hrect : ∀ r ∈ full, r.length = air.context.traceColumns := by
    rw [R1.values, ← hplen]
    intro r hr
    obtain ⟨i, -, rfl⟩ := List.mem_map.mp hr
    simp
  have hD : Declared air full.length air.context.traceColumns r1.rapChallenges := by rw [hlen]; exact hdecl _
  obtain ⟨valid, hvalid⟩ : ∃ v, validateTable air (ofRows full air.context.traceColumns) r1.rapChallenges = .ok v := by
    obtain ⟨b, hb', -⟩ := validateBoundary_iff full _ hrect bd (hD.boundary_in bd h4)
    obtain ⟨cs, hcs⟩ := hc r1.rapChallenges
    obtain ⟨s, hs⟩ := validateSteps_ok air full _ hrect _ hD (List.range full.length) fun i hi => by
      refine ⟨_, hcs.computes _ (by simp) ?_⟩
      intro r hr
      obtain ⟨o, -, rfl⟩ := List.mem_map.mp hr
      have hlt : (i + o) % full.length < full.length := Nat.mod_lt _ (by rw [hlen]; positivity)
      rw [List.getD_eq_getElem _ _ hlt]
      exact hrect _ (List.getElem_mem _)
    refine ⟨b && s, ?_⟩
    unfold validateTable
    rw [nRows_ofRows full _ hD.width_pos hrect, exemptionSteps_ok hD.exemptions_len hD.exemptions_le]
    simp only [Outcome.bind_eq_ok, Outcome.pure_eq, Outcome.ok.injEq]
    exact ⟨bd, h4, b, hb', _, rfl, s, hs, rfl⟩
  refine ⟨valid, d, r1, t, aux, full, ?_, h2, h3, hauxok, hfull, ?_⟩
  · unfold proveDebug round2Debug checkBoundaryPolysDivisibility
    simp only [Outcome.bind_eq_ok, Outcome.pure_eq, Outcome.ok.injEq, Prod.mk.injEq]
    exact ⟨air, by rw [hn, hair], d, h2, (r1, t), (round1Debug_eq air _ D.size D.blowup _).trans h3, valid, by rw [D.tracePrimitiveRoot, D.size, hv, hvalid], bd, h4,
      (r2, []), ⟨[], ⟨[], rfl, rfl⟩, r2, h5, rfl⟩, z, h6, r4, h7, rfl, rfl, rfl⟩
  · rw [← C35_validate_table air full _ hrect _ hD, hvalid, Outcome.ok.injEq]

/-- **C69**: given boundary polynomials and non-zero zerofiers, the divisibility check reports exactly the
polynomials that are not multiples of their zerofiers. -/
theorem C69_divisibility_reports (polys zerofiers : List F[X]) (hz : ∀ z ∈ zerofiers, z ≠ 0) :
    ∃ reports, checkBoundaryPolysDivisibility polys zerofiers = .ok reports ∧ ∀ i, i ∈ reports ↔
      ∃ p z, polys[i]? = some p ∧ zerofiers[i]? = some z ∧ ¬ z ∣ p := by
  unfold checkBoundaryPolysDivisibility
  rw [mapOutcome_eq_map (g := fun x : (F[X] × F[X]) × Nat => if x.1.1 % x.1.2 = 0 then [] else [x.2])]
  · refine ⟨_, rfl, fun i => ?_⟩
    simp only [List.mem_flatten, List.mem_map]
    constructor
    · rintro ⟨l, ⟨⟨⟨p, z⟩, j⟩, hm, rfl⟩, hi⟩
      have hm := List.mem_zipIdx_iff_getElem?.mp hm
      simp only at hi hm
      split at hi
      · cases hi
      · rename_i hne
        obtain rfl := List.mem_singleton.mp hi
        obtain ⟨h1, h2⟩ := List.getElem?_zip_eq_some.mp hm
        exact ⟨p, z, h1, h2, fun hd => hne (EuclideanDomain.mod_eq_zero.mpr hd)⟩
    · rintro ⟨p, z, h1, h2, hd⟩
      refine ⟨_, ⟨((p, z), i), List.mem_zipIdx_iff_getElem?.mpr (List.getElem?_zip_eq_some.mpr ⟨h1, h2⟩), rfl⟩, ?_⟩
      simp only
      rw [if_neg fun h => hd (EuclideanDomain.mod_eq_zero.mp h)]
      simp
  · rintro ⟨⟨p, z⟩, j⟩ hm
    have := List.mem_of_getElem? (List.getElem?_zip_eq_some.mp (List.mem_zipIdx_iff_getElem?.mp hm)).2
    simp only
    rw [if_neg (hz z this)]

/-- **C69**: the divisibility check panics exactly when a boundary polynomial has the zerofier zero. -/
theorem C69_divisibility_panics (polys zerofiers : List F[X]) :
    checkBoundaryPolysDivisibility polys zerofiers = .panic ↔
      ∃ (i : Nat) (p : F[X]), polys[i]? = some p ∧ zerofiers[i]? = some 0 := by
  constructor
  · intro h
    by_contra hc
    have key : ∀ l : List ((F[X] × F[X]) × Nat), (∀ x ∈ l, x.1.2 ≠ 0) →
        ∃ ys, mapOutcome (fun x : (F[X] × F[X]) × Nat =>
          if x.1.2 = 0 then .panic else .ok (if x.1.1 % x.1.2 = 0 then [] else [x.2])) l
          = (.ok ys : Outcome Empty _) := fun l hl =>
      ⟨_, mapOutcome_eq_map (g := fun x : (F[X] × F[X]) × Nat => if x.1.1 % x.1.2 = 0 then [] else [x.2]) l
        fun x hx => by rw [if_neg (hl x hx)]⟩
    obtain ⟨ys, hys⟩ := key (polys.zip zerofiers).zipIdx (by
      rintro ⟨⟨p, z⟩, j⟩ hm (rfl : z = 0)
      obtain ⟨h1, h2⟩ := List.getElem?_zip_eq_some.mp (List.mem_zipIdx_iff_getElem?.mp hm)
      exact hc ⟨j, p, h1, h2⟩)
    unfold checkBoundaryPolysDivisibility at h
    rw [hys] at h
    cases h
  · rintro ⟨i, p, h1, h2⟩
    have hm : ((p, (0 : F[X])), i) ∈ (polys.zip zerofiers).zipIdx :=
      List.mem_zipIdx_iff_getElem?.mpr (List.getElem?_zip_eq_some.mpr ⟨h1, h2⟩)
    cases h : checkBoundaryPolysDivisibility polys zerofiers with
    | panic => rfl
    | err e => exact e.elim
    | ok r =>
      unfold checkBoundaryPolysDivisibility at h
      obtain ⟨ys, hys, -⟩ := Outcome.bind_eq_ok.1 h
      obtain ⟨hl, hy⟩ := mapOutcome_mem hys
      obtain ⟨j, hj, hjm⟩ := List.mem_iff_getElem.1 hm
      have := hy j hj (hl ▸ hj)
      rw [hjm, if_pos rfl] at this
      cases this

/-- **C70**: in the setting of a run, the prover returns a proof for every trace of the right shape, whether or not
it satisfies the constraints, if the field has the roots needed to evaluate the halves of a composition polynomial
that fills the extended domain. -/
theorem C70_prover_total {PI : Type} {new : AirNew F Ch PI} {pi : PI} {options : ProofOptions}
    {air : Air F Ch} {a b : Nat} (S : Setting air a b) (hab : a + 2 * b ≤ 64) (had : a + 2 * b ≤ env.ta.adicity + 1)
    (hnew : new (2 ^ a) pi options = .ok air)
    (hN : (air.context.proofOptions.cosetOffset : F) ^ 2 ^ (a + b) ≠ 1)
    {rows : List (List F)} {k : Nat} (hk : 0 < k) (hrows : rows.length = 2 ^ a)
    (hr : ∀ r ∈ rows, r.length = k)
    (hc : ∀ ch, ∃ cs, PolynomialConstraints air ch cs)
    (hdecl : ∀ ch, Declared air (2 ^ a) air.context.traceColumns ch)
    (hshape : ∀ root, CommitmentTo env air (ofRows rows k) root → ∃ aux bcs full,
      air.buildAuxiliaryTrace (ofRows rows k) (challengesAfter env air root) = .ok aux ∧
      air.boundaryConstraints (challengesAfter env air root) = .ok bcs ∧ JoinedRows air rows k aux full)
    (hz : SamplingEnds env air)
    (hgrind : ∀ challenge, Grinding.generateNonce env.keccak challenge
      air.context.proofOptions.grindingFactor.toNat ≠ none) :
    ∃ proof, prove env new (ofRows rows k) pi options = .ok proof :=
  prove_total S.rows hab had hnew S.length S.blowup S.extended S.offset hN S.fits hk hrows hr hc
    (fun root hroot => by
      obtain ⟨aux, bcs, full, h1, h2, h3⟩ := hshape root hroot
      exact ⟨aux, bcs, h1, h2, full, h3⟩)
    (fun ch bcs h c hcm => ((hdecl ch).boundary_in bcs h c hcm).2) hz hgrind

/-- **C69**: the assertion on the lengths of the columns. In debug builds a table is made of a list of columns exactly
when there is one and all have the same length, and it is the table of the release build. The release build makes a
table exactly when no column is shorter than the first, and it leaves out what the others have more. -/
theorem C69_columns {F : Type} (cols : List (List F)) (t : TraceTable F) :
    (newFromColsDebug cols = .ok t ↔ (∃ n, cols ≠ [] ∧ ∀ c ∈ cols, c.length = n) ∧ newFromCols cols = .ok t) ∧
    (newFromCols cols = .ok t ↔ ∃ first rest, cols = first :: rest ∧ (∀ c ∈ rest, first.length ≤ c.length) ∧
      newFromColsDebug (cols.map (·.take first.length)) = .ok t) := by
  constructor
  · constructor
    · intro h
      refine ⟨?_, newFromColsDebug_ok h⟩
      unfold newFromColsDebug at h
      simp only [Outcome.bind_eq_ok] at h
      obtain ⟨first, h0, h⟩ := h
      split at h
      · rename_i hall
        simp only [List.all_eq_true, decide_eq_true_eq] at hall
        refine ⟨first.length, ?_, hall⟩
        rintro rfl
        cases h0
      · cases h
    · rintro ⟨⟨n, -, hn⟩, h⟩
      rw [newFromColsDebug_eq hn]
      exact h
  · cases cols with
    | nil => exact ⟨(by cases ·), fun ⟨_, _, h, _⟩ => absurd h (by simp)⟩
    | cons first rest =>
      have hcut : (∀ c ∈ rest, first.length ≤ c.length) →
          newFromColsDebug ((first :: rest).map (·.take first.length)) = newFromCols (first :: rest) := by
        intro hle
        rw [newFromColsDebug_eq (n := first.length)]
        · unfold newFromCols
          have h0 : (index (first :: rest) 0 : Outcome Empty (List F)) = .ok first := rfl
          have h1 : (index ((first :: rest).map (·.take first.length)) 0 : Outcome Empty (List F)) = .ok first := by
            simp [index, Outcome.ofOptionUnwrap]
          rw [h0, h1]
          simp only [Outcome.bind_ok, List.length_map]
          congr 1
          refine mapOutcome_congr_getElem rfl fun r hr _ => ?_
          rw [List.length_range] at hr
          refine mapOutcome_congr_getElem (by simp) fun c _ _ => ?_
          unfold index
          rw [List.getElem_map, List.getElem_range, List.getElem?_take_of_lt hr]
        · intro c hc
          obtain ⟨x, hx, rfl⟩ := List.mem_map.mp hc
          rcases List.mem_cons.mp hx with rfl | hx
          · simp
          · simp [hle x hx]
      constructor
      · intro h
        have hle : ∀ c ∈ rest, first.length ≤ c.length := by
          intro c hc
          rcases Nat.eq_zero_or_pos first.length with h0 | hpos
          · omega
          · unfold newFromCols at h
            simp only [Outcome.bind_eq_ok] at h
            obtain ⟨f, hf, rows, hrows, -⟩ := h
            obtain rfl : first = f := Outcome.ok.inj hf
            obtain ⟨hl, hrows⟩ := mapOutcome_mem hrows
            rw [List.length_range] at hl
            have hrow := hrows (first.length - 1) (by simp; omega) (by omega)
            rw [List.getElem_range] at hrow
            obtain ⟨i, hi, rfl⟩ := List.getElem_of_mem hc
            obtain ⟨hl', hrow⟩ := mapOutcome_mem hrow
            have := hrow (i + 1) (by simp [hi]) (by rw [hl']; simp [hi])
            rw [index_eq_ok] at this
            simp only [List.getElem_cons_succ] at this
            obtain ⟨hlt, -⟩ := List.getElem?_eq_some_iff.mp this
            omega
        exact ⟨first, rest, rfl, hle, (hcut hle).trans h⟩
      · rintro ⟨f, r, he, hle, h⟩
        obtain ⟨rfl, rfl⟩ := List.cons.inj he
        exact (hcut hle).symm.trans h

/-- **C69**: the assertion never fires in the prover: for every AIR, trace and transcript, on domains whose sizes are
powers of two, the first round is the same in both builds. -/
theorem C69_assertion_never_fires {air : Air F Ch} {d : Domain F} {a b : Nat} (hd : Domain.new env.ta air = .ok d)
    (hn : air.traceLength = 2 ^ a) (hb : air.context.proofOptions.blowupFactor.toNat = 2 ^ b)
    (trace : TraceTable F) (t : T) : round1Debug env air trace d t = round1 env air trace d t := by
  unfold Domain.new at hd
  simp only [Outcome.bind_eq_ok] at hd
  obtain ⟨g, -, roots, -, hd⟩ := hd
  split at hd
  · cases hd
  · simp only [Outcome.bind_eq_ok, Outcome.pure_eq, Outcome.ok.injEq] at hd
    obtain ⟨lde, -, rfl⟩ := hd
    exact round1Debug_eq air trace hn hb t

section examples
open Verif.Examples Verif.ExampleAirs

/-- Columns of different lengths: debug builds panic; release builds drop the end of a longer column. -/
example : newFromColsDebug [[1, 2], [3, 4, (5 : ZMod 17)]] = .panic ∧
    newFromCols [[1, 2], [3, 4, (5 : ZMod 17)]] = .ok ⟨[1, 3, 2, 4], 2⟩ ∧
    newFromCols [[1, 2], [(3 : ZMod 17)]] = .panic ∧
    newFromColsDebug [[1, 2], [3, (4 : ZMod 17)]] = .ok ⟨[1, 3, 2, 4], 2⟩ := by decide

/-- The first round of a run over `ZMod 17`. -/
example (d : Domain (ZMod 17)) (hd : Domain.new env17.ta air17 = .ok d) (trace : TraceTable (ZMod 17)) :
    round1Debug env17 air17 trace d env17.tr.init = round1 env17 air17 trace d env17.tr.init :=
  C69_assertion_never_fires hd setting17.length setting17.blowup trace _

theorem declared17 (ch : Unit) : Declared air17 (2 ^ 2) air17.context.traceColumns ch :=
  ⟨by decide, by norm_num, rfl, by decide, fun frame evals h => by
    have h : fibonacci2Transition frame ch = .ok evals := h
    unfold fibonacci2Transition at h
    simp only [Outcome.bind_eq_ok, Outcome.pure_eq, Outcome.ok.injEq] at h
    obtain ⟨_, -, _, -, _, -, _, -, _, -, _, -, rfl⟩ := h
    rfl, fun cs h => by
    obtain rfl := Outcome.ok.inj h
    decide⟩

/-- Every trace of four rows of two columns: the hypotheses of `C70_prover_total` and of `C69_debug_succeeds` are met,
whether or not the trace satisfies the constraints. -/
theorem debug17 (rows : List (List (ZMod 17))) (hrows : rows.length = 4) (hr : ∀ r ∈ rows, r.length = 2) :
    ∃ proof valid, prove env17 fibonacci2 (ofRows rows 2) ⟨1, 1⟩ (options17 3) = .ok proof ∧
      proveDebug env17 fibonacci2 (ofRows rows 2) ⟨1, 1⟩ (options17 3) = .ok (proof, valid, []) ∧
      (valid = true ↔ Satisfies air17 rows 2 ()) := by
  obtain ⟨proof, hp⟩ := C70_prover_total (env := env17) setting17 (by norm_num) (by decide) air17_eq
    (by decide +kernel) (rows := rows) (k := 2) (by norm_num) hrows hr
    (fun ch => ⟨_, fibonacci2_polynomial _ _ _ air17_eq ch⟩) declared17
    (fun _ _ => ⟨_, _, rows, rfl, rfl, .inl ⟨rfl, rfl, rfl⟩⟩)
    (samplingEnds_of setting17 fun lde trace t h1 h2 => sampleZOod17 0 lde trace t (by rw [h1, h2]; norm_num))
    (fun c => generateNonce_zero _ c)
  obtain ⟨valid, d, r1, t, aux, full, h1, h2, h3, h4, h5, h6⟩ := C69_debug_succeeds setting17 air17_eq (by norm_num)
    hrows hr (fun ch => ⟨_, fibonacci2_polynomial _ _ _ air17_eq ch⟩) declared17 (fun ch aux h => by
      obtain rfl := Outcome.ok.inj h
      exact ⟨rows, .inl ⟨rfl, rfl, rfl⟩⟩) hp
  obtain rfl := Outcome.ok.inj h4
  rcases h5 with ⟨-, -, rfl⟩ | ⟨_, h0, -⟩
  · exact ⟨proof, valid, hp, h1, h6⟩
  · exact absurd h0 (by decide)

/-- For the Fibonacci sequence the validation succeeds. -/
example : ∃ proof, prove env17 fibonacci2 (ofRows rows17 2) ⟨1, 1⟩ (options17 3) = .ok proof ∧
    proveDebug env17 fibonacci2 (ofRows rows17 2) ⟨1, 1⟩ (options17 3) = .ok (proof, true, []) := by
  obtain ⟨proof, valid, h1, h2, h3⟩ := debug17 rows17 rfl (by decide)
  rw [h3.mpr rows17_satisfy] at h2
  exact ⟨proof, h1, h2⟩

/-- For rows that are not the Fibonacci sequence the validation fails, and the proof is returned all the same. -/
example : ∃ proof, prove env17 fibonacci2 (ofRows [[1, 1], [2, 3], [5, 8], [13, 5]] 2) ⟨1, 1⟩ (options17 3) = .ok proof ∧
    proveDebug env17 fibonacci2 (ofRows [[1, 1], [2, 3], [5, 8], [13, 5]] 2) ⟨1, 1⟩ (options17 3)
      = .ok (proof, false, []) := by
  obtain ⟨proof, valid, h1, h2, h3⟩ := debug17 [[1, 1], [2, 3], [5, 8], [13, 5]] rfl (by decide)
  cases valid with
  | false => exact ⟨proof, h1, h2⟩
  | true =>
    have := (C54_fibonacci_two_columns (n := 2 ^ 2) air17_eq rfl (by norm_num) (by decide)).mp (h3.mp rfl)
    exact absurd (this 3 (by norm_num)) (by decide +kernel)

/-- The check reports the second of two polynomials. -/
example : ∃ reports, checkBoundaryPolysDivisibility [(X : (ZMod 17)[X]) ^ 2, X + 1] [X, X] = .ok reports ∧
    reports ≠ [] := by
  obtain ⟨reports, h1, h2⟩ := C69_divisibility_reports [(X : (ZMod 17)[X]) ^ 2, X + 1] [X, X] (by simp [X_ne_zero])
  refine ⟨reports, h1, List.ne_nil_of_mem ((h2 1).mpr ⟨X + 1, X, rfl, rfl, fun h => ?_⟩)⟩
  rw [X_dvd_iff] at h
  simp at h

/-- The second of two zerofiers is zero. -/
example : checkBoundaryPolysDivisibility [(X : (ZMod 17)[X]) ^ 2, X + 1] [X, 0] = .panic :=
  (C69_divisibility_panics _ _).mpr ⟨1, X + 1, rfl, rfl⟩

end examples

end Verif.Props
