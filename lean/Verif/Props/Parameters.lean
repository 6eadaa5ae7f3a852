import Verif.Spec.Parameters
import Verif.Props.Debug
import Verif.Model.CairoProof
import Verif.Model.Roots

/-!
# C84: parameters that the prover cannot work with
-/

namespace Verif.Props
open Polynomial Spec TraceTable CairoAir
variable {F T Ch : Type} [Field F] [DecidableEq F] {env : Env F T}

omit [Field F] [DecidableEq F] in
/-- The columns of a table have as many cells as it has rows. -/
theorem cols_shape {t : TraceTable F} {cols : List (List F)} (h : t.cols = .ok cols) :
    cols.length = t.nCols ∧ ∀ c ∈ cols, c.length = t.nRows := by
  obtain ⟨hl, hg⟩ := mapOutcome_mem h
  refine ⟨by simpa using hl, fun c hc => ?_⟩
  obtain ⟨i, hi, rfl⟩ := List.getElem_of_mem hc
  have := hg i (by omega) hi
  simpa using (mapOutcome_mem this).1

/-- The first round only succeeds for a power of two of rows and a blowup factor that is a power of two. -/
theorem interpolateAndCommit_powers {trace : TraceTable F} {d : Domain F} {t t' : T}
    {r : List F[X] × List (List F) × Merkle.Tree × Commitment}
    (h : interpolateAndCommit env trace d t = .ok (r, t')) :
    (∃ a, trace.nRows = 2 ^ a) ∧ ∃ b, d.blowupFactor = 2 ^ b := by
  unfold interpolateAndCommit computeTracePolys computeLdeTraceEvaluations at h
  simp only [Outcome.bind_eq_ok, Outcome.pure_eq, Outcome.ok.injEq, Prod.mk.injEq] at h
  obtain ⟨polys, ⟨cols, hcols, hpolys⟩, evals, hevals, lde, hlde, -⟩ := h
  obtain ⟨hlen, hc⟩ := cols_shape hcols
  obtain ⟨hl1, hg1⟩ := mapOutcome_mem hpolys
  obtain ⟨hl2, hg2⟩ := mapOutcome_mem hevals
  have hpos : 0 < evals.length := by
    unfold newFromCols at hlde
    simp only [Outcome.bind_eq_ok] at hlde
    obtain ⟨first, hf, -⟩ := hlde
    rw [index_eq_ok] at hf
    exact (List.getElem?_eq_some_iff.1 hf).1
  have h1 := hg1 0 (by omega) (by omega)
  have h2 := hg2 0 (by omega) hpos
  constructor
  · unfold interpolateOffsetFft at h1
    split at h1
    · cases h1
    · rename_i hp
      rw [hc _ (List.getElem_mem _)] at hp
      exact ⟨_, not_not.1 hp⟩
  · unfold evaluateOnLde at h2
    rw [Outcome.bind_eq_ok] at h2
    obtain ⟨vals, h2, -⟩ := h2
    unfold evaluateOffsetFft at h2
    simp only at h2
    split at h2
    · cases h2
    · rename_i hp
      have hd : d.blowupFactor ∣ 2 ^ Nat.log 2 (nextPowerOfTwo
          (max (coefficients polys[0]).length d.interpolationDomainSize) * d.blowupFactor) :=
        ⟨_, (not_not.1 hp).symm.trans (Nat.mul_comm _ _)⟩
      obtain ⟨b, -, hb⟩ := (Nat.dvd_prime_pow Nat.prime_two).1 hd
      exact ⟨b, hb⟩

/-- **C84**: whatever the AIR (for the number of rows it is given), the trace, the options, the hash functions and the
transcript are, `prove` only returns a proof when the parameters are usable. -/
theorem C84_parameters {PI : Type} {new : AirNew F Ch PI} {trace : TraceTable F} {pi : PI} {options : ProofOptions}
    {proof : StarkProof F} (hroot : ∀ w, env.ta.root 0 = some w → w = 1)
    (hnew : ∀ air, new trace.nRows pi options = .ok air →
      air.traceLength = trace.nRows ∧ air.context.proofOptions = options)
    (h : prove env new trace pi options = .ok proof) :
    0 < trace.nCols ∧ Usable F env.ta.adicity trace.nRows options := by
  unfold prove at h
  simp only [Outcome.bind_eq_ok, Outcome.pure_eq, Outcome.ok.injEq] at h
  obtain ⟨air, hair, d, hd, ⟨r1, t1⟩, hr1, bd, -, r2, hr2, -⟩ := h
  obtain ⟨hn, ho⟩ := hnew air hair
  have hbl : d.blowupFactor = options.blowupFactor.toNat ∧ d.cosetOffset = (options.cosetOffset : F) := by
    unfold Domain.new at hd
    simp only [Outcome.bind_eq_ok] at hd
    obtain ⟨g, -, roots, -, hd⟩ := hd
    split at hd
    · cases hd
    · simp only [Outcome.bind_eq_ok, Outcome.pure_eq, Outcome.ok.injEq] at hd
      obtain ⟨_, -, rfl⟩ := hd
      rw [ho]
      exact ⟨rfl, rfl⟩
  unfold round1 at hr1
  simp only [Outcome.bind_eq_ok] at hr1
  obtain ⟨⟨main, t'⟩, hmain, -⟩ := hr1
  obtain ⟨⟨a, ha⟩, b, hb⟩ := interpolateAndCommit_powers hmain
  rw [hbl.1] at hb
  have hcols : 0 < trace.nCols := by
    by_contra hc
    have : trace.nRows = 0 := by unfold nRows; rw [if_pos (by omega)]
    rw [ha] at this
    exact absurd this (by positivity)
  have hdom : a + b < 64 ∧ a + b ≤ env.ta.adicity := by
    unfold Domain.new at hd
    simp only [Outcome.bind_eq_ok, hn, ho, ha, hb] at hd
    obtain ⟨g, -, roots, -, hd⟩ := hd
    split at hd
    · cases hd
    rename_i hsmall
    have hab : a + b < 64 := by
      rw [← pow_add] at hsmall
      by_contra hc
      exact hsmall (Nat.pow_le_pow_right (by norm_num) (by omega))
    rw [← pow_add, trailingZeros_pow hab] at hd
    simp only [Outcome.bind_eq_ok] at hd
    obtain ⟨lde, hlde, -⟩ := hd
    obtain ⟨w, hw, -⟩ := powersCoset_ok.mp hlde
    refine ⟨hab, ?_⟩
    by_contra hc
    rw [env.ta.undefined _ (by omega)] at hw
    cases hw
  unfold round2 at hr2
  simp only [Outcome.bind_eq_ok] at hr2
  obtain ⟨bd, -, evals, hev, H, hH, -⟩ := hr2
  have hoff : (options.cosetOffset : F) ≠ 0 := by
    rw [← hbl.2]
    unfold computeCompositionPoly interpolateOffsetFft at hH
    split at hH
    · cases hH
    · rw [Outcome.bind_eq_ok] at hH
      obtain ⟨w, -, hH⟩ := hH
      split at hH
      · cases hH
      · assumption
  have hb8 : b < 8 := by
    have := options.blowupFactor.toNat_lt
    rw [hb] at this
    exact (Nat.pow_lt_pow_iff_right (by norm_num)).1 (this : 2 ^ b < 2 ^ 8)
  have hN : (options.cosetOffset : F) ^ 2 ^ (a + b) ≠ 1 := by
    unfold evaluateConstraints at hev
    simp only [Outcome.bind_eq_ok, hn, ho, ha, hb] at hev
    obtain ⟨_, -, _, -, hev⟩ := hev
    split at hev
    · cases hev
    simp only [Outcome.bind_eq_ok] at hev
    obtain ⟨_, -, _, -, _, -, _, -, _, -, powers, hp, zs, hz, -⟩ := hev
    rw [trailingZeros_two_pow 8 b hb8] at hp
    obtain ⟨w, hw, rfl⟩ := powersCoset_ok.mp hp
    obtain ⟨hz, -⟩ := batchInverse_eq_ok.mp hz
    intro h1
    have hprim : IsPrimitiveRoot w (2 ^ b) := by
      rcases Nat.eq_zero_or_pos b with rfl | hbp
      · rw [hroot w hw]
        exact IsPrimitiveRoot.one
      · exact env.ta.primitive b w hbp hw
    have hy : (((options.cosetOffset : F) ^ 2 ^ a)⁻¹) ^ 2 ^ b = 1 := by
      rw [inv_pow, ← pow_mul, ← pow_add, h1, inv_one]
    obtain ⟨i, hi, hwi⟩ := hprim.eq_pow_of_pow_eq_one hy
    refine hz 0 ?_ rfl
    rw [List.mem_map]
    refine ⟨1, ?_, by simp⟩
    rw [List.mem_map]
    exact ⟨i, by simpa using hi, by rw [hwi, inv_mul_cancel₀ (pow_ne_zero _ hoff)]⟩
  refine ⟨hcols, ⟨a, ha⟩, ⟨b, hb⟩, ?_, ?_, hoff, ?_⟩
  · rw [ha, hb, ← pow_add]
    exact Nat.pow_le_pow_right (by norm_num) hdom.2
  · rw [ha, hb, ← pow_add]
    exact Nat.pow_lt_pow_right (by norm_num) hdom.1
  · intro w hw h1
    rw [ha, hb, ← pow_add] at hw
    rw [ha] at h1
    apply hN
    have : (((options.cosetOffset : F) * w) ^ 2 ^ a) ^ 2 ^ b = 1 := by rw [h1, one_pow]
    rwa [← pow_mul, ← pow_add, mul_pow, hw, mul_one] at this


/-- **C84**: with parameters that are not usable, `prove` panics; it never returns a proof. -/
theorem C84_refuses {PI : Type} {new : AirNew F Ch PI} {trace : TraceTable F} {pi : PI} {options : ProofOptions}
    (hroot : ∀ w, env.ta.root 0 = some w → w = 1)
    (hnew : ∀ air, new trace.nRows pi options = .ok air →
      air.traceLength = trace.nRows ∧ air.context.proofOptions = options)
    (h : trace.nCols = 0 ∨ ¬ Usable F env.ta.adicity trace.nRows options) :
    prove env new trace pi options = .panic := by
  cases hp : prove env new trace pi options with
  | err e => cases e
  | panic => rfl
  | ok proof =>
    obtain ⟨h1, h2⟩ := C84_parameters hroot hnew hp
    rcases h with h | h
    · omega
    · exact absurd h2 h

/-- **C84** for the Cairo prover: a proof is only returned for a power of two of rows, a blowup factor that is a power
of two, an extended domain of at most `2^63` points (the field has `2^192`) and an offset that keeps it away from the
trace domain; in all other cases the prover panics. -/
theorem C84_cairo {env : Env FE T} (hta : env.ta = starkRoots) (trace : TraceTable FE) (pi : PublicInputs)
    (options : ProofOptions) :
    (∀ proof, generateCairoProof env trace pi options = .ok proof → Usable FE 192 trace.nRows options) ∧
    (¬ Usable FE 192 trace.nRows options → generateCairoProof env trace pi options = .panic) := by
  have hroot : ∀ w, env.ta.root 0 = some w → w = 1 := by
    rw [hta]
    intro w hw
    have : w = ((3 : FE) ^ ((P - 1) / 2 ^ 192)) ^ 2 ^ 192 := (Option.some.inj hw).symm
    rw [this, stark_primitive.pow_eq_one]
  have hnew : ∀ air, CairoAir.new trace.nRows pi options = .ok air →
      air.traceLength = trace.nRows ∧ air.context.proofOptions = options := by
    intro air h
    obtain rfl := Outcome.ok.inj h
    exact ⟨rfl, rfl⟩
  have had : env.ta.adicity = 192 := by rw [hta]; rfl
  constructor
  · intro proof hp
    rw [← had]
    exact (C84_parameters hroot hnew hp).2
  · intro h
    rw [← had] at h
    exact C84_refuses hroot hnew (.inr h)

section examples
open Verif.Examples Verif.ExampleAirs

/-- The hypotheses are met: the proof of four rows with the blowup factor 2 and the offset 3 is returned, so the
parameters are usable; with three rows, with the blowup factor 3, and with the offsets 0 and 1 the prover panics. -/
example : Usable (ZMod 17) env17.ta.adicity 4 (options17 3) ∧
    prove env17 fibonacci2 (ofRows [[1, 1], [2, 3], [5, 8]] 2) ⟨1, 1⟩ (options17 3) = .panic ∧
    prove env17 fibonacci2 (ofRows rows17 2) ⟨1, 1⟩ ⟨3, 2, 3, 0⟩ = .panic ∧
    prove env17 fibonacci2 (ofRows rows17 2) ⟨1, 1⟩ (options17 0) = .panic ∧
    prove env17 fibonacci2 (ofRows rows17 2) ⟨1, 1⟩ (options17 1) = .panic := by
  have hroot : ∀ w, env17.ta.root 0 = some w → w = 1 := by decide +kernel
  have hnew : ∀ (n : Nat) (o : ProofOptions) (air : Air (ZMod 17) Unit), fibonacci2 n ⟨1, 1⟩ o = .ok air →
      air.traceLength = n ∧ air.context.proofOptions = o := by
    intro n o air h
    obtain rfl := Outcome.ok.inj h
    exact ⟨rfl, rfl⟩
  obtain ⟨proof, -, hp, -⟩ := debug17 rows17 rfl (by decide)
  refine ⟨(C84_parameters hroot (hnew _ _) hp).2, C84_refuses hroot (hnew _ _) (.inr fun h => ?_),
    C84_refuses hroot (hnew _ _) (.inr fun h => ?_), C84_refuses hroot (hnew _ _) (.inr fun h => ?_),
    C84_refuses hroot (hnew _ _) (.inr fun h => ?_)⟩
  · obtain ⟨a, ha⟩ := h.rowsPower
    have ha : 3 = 2 ^ a := ha
    rcases a with _ | a
    · omega
    · rw [pow_succ] at ha; omega
  · obtain ⟨a, ha⟩ := h.blowupPower
    have ha : 3 = 2 ^ a := ha
    rcases a with _ | a
    · omega
    · rw [pow_succ] at ha; omega
  · exact h.offset (by decide)
  · exact h.disjoint 1 (one_pow _) (by rw [mul_one]; exact one_pow _)

end examples

end Verif.Props
