import Verif.Props.Unsatisfied
import Verif.Spec.Placed

/-!
# C70 for the Cairo AIR: what the prover needs to return a proof of a table of any contents
-/

namespace Verif.Props
open CairoAir ExecTrace TraceTable Spec
variable {T : Type} {env : Env FE T}

theorem getPubMemoryAddrs_iff (pi : PublicInputs) (addrs : List FE) :
    getPubMemoryAddrs (pi.memorySegments.get? .output) pi.publicMemory.length = .ok addrs →
      (∀ s e, pi.memorySegments.get? .output = some (s, e) → s ≤ e ∧ e - s ≤ pi.publicMemory.length) ∧
      ∀ x, x ∈ addrs ↔ ∃ n : Nat, IsPublic (pi.publicMemory.length - outputCells pi.memorySegments)
        pi.memorySegments n ∧ x = (n : FE) := by
  intro h
  unfold getPubMemoryAddrs at h
  unfold IsPublic outputCells
  split at h
  · next s e hse =>
    split at h
    · next hc =>
      simp only [Outcome.ok.injEq] at h
      subst h
      rw [hse]
      refine ⟨by rintro s' e' h; cases h; exact hc, fun x => ?_⟩
      simp only [List.mem_append, List.mem_map, List.mem_range'_1]
      constructor
      · rintro (⟨n, hn, rfl⟩ | ⟨n, hn, rfl⟩)
        · exact ⟨n, .inl ⟨hn.1, by omega⟩, rfl⟩
        · exact ⟨n, .inr ⟨s, e, rfl, hn.1, by omega⟩, rfl⟩
      · rintro ⟨n, hn | ⟨s', e', h, hn⟩, rfl⟩
        · exact .inl ⟨n, by omega, rfl⟩
        · cases h
          exact .inr ⟨n, by omega, rfl⟩
    · cases h
  · next hse =>
    simp only [Outcome.ok.injEq] at h
    subst h
    rw [hse]
    refine ⟨(by rintro s' e' h; cases h), fun x => ?_⟩
    simp only [List.mem_map, List.mem_range'_1]
    constructor
    · rintro ⟨n, hn, rfl⟩
      exact ⟨n, .inl ⟨hn.1, by omega⟩, rfl⟩
    · rintro ⟨n, hn | ⟨s', e', h, hn⟩, rfl⟩
      · exact ⟨n, by omega, rfl⟩
      · cases h

theorem getPubMemoryAddrs_exists {pi : PublicInputs}
    (h : ∀ s e, pi.memorySegments.get? .output = some (s, e) → s ≤ e ∧ e - s ≤ pi.publicMemory.length) :
    ∃ addrs, getPubMemoryAddrs (pi.memorySegments.get? .output) pi.publicMemory.length = .ok addrs := by
  unfold getPubMemoryAddrs
  split
  · next s e hse =>
    rw [if_pos (h s e hse)]
    exact ⟨_, rfl⟩
  · exact ⟨_, rfl⟩

/-- The values found for the addresses. -/
theorem lookups_zip {m : HMap FE FE} {addrs vals : List FE}
    (h : mapOutcome (fun a => (Outcome.ofOptionUnwrap (m.get? a) : Run FE)) addrs = .ok vals) (e : FE × FE) :
    e ∈ addrs.zip vals ↔ e.1 ∈ addrs ∧ m.get? e.1 = some e.2 := by
  induction addrs generalizing vals with
  | nil => simp [mapOutcome] at h; subst h; simp
  | cons a t ih =>
    simp only [mapOutcome, Outcome.bind_eq_ok, Outcome.pure_eq, Outcome.ok.injEq] at h
    obtain ⟨v, hv, vs, hvs, rfl⟩ := h
    have hv' : m.get? a = some v := by
      unfold Outcome.ofOptionUnwrap at hv
      split at hv
      · next x hx => rw [hx, Outcome.ok.inj hv]
      · cases hv
    rw [List.zip_cons_cons, List.mem_cons, ih hvs, List.mem_cons]
    obtain ⟨x, y⟩ := e
    simp only [Prod.mk.injEq]
    constructor
    · rintro (⟨rfl, rfl⟩ | ⟨h1, h2⟩)
      · exact ⟨.inl rfl, hv'⟩
      · exact ⟨.inr h1, h2⟩
    · rintro ⟨rfl | h1, h2⟩
      · rw [hv'] at h2
        exact .inl ⟨rfl, (Option.some.inj h2).symm⟩
      · exact .inr ⟨h1, h2⟩

/-- **C70**, the auxiliary trace of a table of any contents: it is built exactly when the public memory can be placed and
no factor in a denominator is zero: neither that of one of the accesses that stay or of a placed cell, nor that of an
offset, of which the lowest 16 bits are taken. -/
theorem C70_auxiliary (pi : PublicInputs) (rows : List (List FE)) (ch : RAPChallenges FE) :
    (∃ aux, buildAuxiliaryTrace pi rows ch = .ok aux) ↔
      Placeable pi rows.length ∧
      (∀ e ∈ (accesses rows).take (4 * rows.length - pi.publicMemory.length), ch.zMemory ≠ e.1 + ch.alphaMemory * e.2) ∧
      (∀ (n : Nat) (v : FE), IsPublic (pi.publicMemory.length - outputCells pi.memorySegments) pi.memorySegments n →
        pi.publicMemory.get? (n : FE) = some v → ch.zMemory ≠ n + ch.alphaMemory * v) ∧
      ∀ x ∈ getCols rows [OFF_DST, OFF_OP0, OFF_OP1], ch.zRangeCheck ≠ ((x.val % 2 ^ 16 : Nat) : FE) := by
  have hlen4 : (getCols rows ADDR_COLUMNS).length = 4 * rows.length := by
    rw [length_getCols]; rfl
  have hlen4' : (getCols rows VALUE_COLUMNS).length = 4 * rows.length := by
    rw [length_getCols]; rfl
  have hoff : ∀ x, x ∈ sortedOffsets rows ↔ ∃ y ∈ getCols rows [OFF_DST, OFF_OP0, OFF_OP1],
      ((y.val % 2 ^ 16 : Nat) : FE) = x := by
    intro x
    unfold sortedOffsets
    simp only [List.mem_map, (sortNat_perm _).mem_iff]
    constructor
    · rintro ⟨n, ⟨y, hy, rfl⟩, rfl⟩; exact ⟨y, hy, rfl⟩
    · rintro ⟨y, hy, rfl⟩; exact ⟨_, ⟨y, hy, rfl⟩, rfl⟩
  have hzip : ∀ addrs vals : List FE, pi.publicMemory.length ≤ 4 * rows.length →
      ((getCols rows ADDR_COLUMNS).take ((getCols rows ADDR_COLUMNS).length - pi.publicMemory.length) ++ addrs).zip
        ((getCols rows VALUE_COLUMNS).take ((getCols rows ADDR_COLUMNS).length - pi.publicMemory.length) ++ vals)
      = (accesses rows).take (4 * rows.length - pi.publicMemory.length) ++ addrs.zip vals := by
    intro addrs vals h
    rw [List.zip_append (by simp [hlen4, hlen4']), hlen4]
    unfold accesses
    simp only [List.zip, List.take_zipWith]
  constructor
  · rintro ⟨aux, haux⟩
    obtain ⟨a', v', pcol, rcol, sorted, A⟩ := buildAuxiliaryTrace_ok haux
    have hadd := A.pub
    have hmne := A.mem_ne
    rw [A.sorted_eq] at hmne
    have hrne := A.rc_ne
    unfold addPubMemory at hadd
    simp only at hadd
    split at hadd
    · cases hadd
    next hc =>
    simp only [Outcome.bind_eq_ok, Outcome.pure_eq, Outcome.ok.injEq, Prod.mk.injEq] at hadd
    obtain ⟨addrs, ha, vals, hv, rfl, rfl⟩ := hadd
    rw [hlen4] at hc
    obtain ⟨h1, h2⟩ := getPubMemoryAddrs_iff pi addrs ha
    have hz := hzip addrs vals (by omega)
    have hmem : ∀ e ∈ (accesses rows).take (4 * rows.length - pi.publicMemory.length) ++ addrs.zip vals,
        ch.zMemory ≠ e.1 + ch.alphaMemory * e.2 := by
      intro e he h
      apply hmne
      rw [List.mem_map]
      refine ⟨e, ?_, ?_⟩
      · rw [(sortByAddress_perm _).mem_iff, hz]; exact he
      · unfold memFactor; rw [sub_eq_zero]; exact h
    refine ⟨⟨by omega, h1, fun n hn => ?_⟩, fun e he => hmem e (List.mem_append_left _ he), fun n v hn hv' => ?_,
      fun x hx h => ?_⟩
    · obtain ⟨i, hi, hx⟩ := List.mem_iff_getElem.1 ((h2 (n : FE)).2 ⟨n, hn, rfl⟩)
      have hm := mapOutcome_mem hv
      have := hm.2 i hi (by rw [hm.1]; exact hi)
      rw [hx] at this
      unfold Outcome.ofOptionUnwrap at this
      split at this
      · next v hv' => exact ⟨v, hv'⟩
      · cases this
    · exact hmem ((n : FE), v) (List.mem_append_right _
        ((lookups_zip hv _).2 ⟨(h2 _).2 ⟨n, hn, rfl⟩, hv'⟩))
    · apply hrne
      rw [List.mem_map]
      exact ⟨_, (hoff _).2 ⟨x, hx, rfl⟩, sub_eq_zero.2 h⟩
  · rintro ⟨P, h1, h2, h3⟩
    obtain ⟨addrs, ha⟩ := getPubMemoryAddrs_exists P.output
    obtain ⟨-, haddr⟩ := getPubMemoryAddrs_iff pi addrs ha
    obtain ⟨vals, hv⟩ := ExecTrace.mapOutcome_exists
      (f := fun a => (Outcome.ofOptionUnwrap (pi.publicMemory.get? a) : Run FE)) (l := addrs) (fun a hmem => by
        obtain ⟨n, hn, rfl⟩ := (haddr a).1 hmem
        obtain ⟨v, hv⟩ := P.cells n hn
        exact ⟨v, by rw [hv]; rfl⟩)
    have hadd : addPubMemory (getCols rows ADDR_COLUMNS) (getCols rows VALUE_COLUMNS) pi
        = .ok ((getCols rows ADDR_COLUMNS).take ((getCols rows ADDR_COLUMNS).length - pi.publicMemory.length) ++ addrs,
          (getCols rows VALUE_COLUMNS).take ((getCols rows ADDR_COLUMNS).length - pi.publicMemory.length) ++ vals) := by
      unfold addPubMemory
      simp only
      rw [if_neg (by rw [hlen4]; exact Nat.not_lt.2 P.fits), ha, Outcome.bind_ok, hv, Outcome.bind_ok]
      rfl
    have hz := hzip addrs vals P.fits
    have hm0 : (0 : FE) ∉ (sortByAddress ((accesses rows).take (4 * rows.length - pi.publicMemory.length)
        ++ addrs.zip vals)).map (fun e => ch.zMemory - (e.1 + ch.alphaMemory * e.2)) := by
      intro h0
      obtain ⟨e, he, h0⟩ := List.mem_map.1 h0
      rw [(sortByAddress_perm _).mem_iff] at he
      rcases List.mem_append.1 he with he | he
      · exact h1 e he (sub_eq_zero.1 h0)
      · obtain ⟨he1, he2⟩ := (lookups_zip hv e).1 he
        obtain ⟨n, hn, hen⟩ := (haddr _).1 he1
        rw [hen] at he2
        refine h2 n e.2 hn he2 ?_
        rw [← hen]
        exact sub_eq_zero.1 h0
    have hr0 : (0 : FE) ∉ (sortedOffsets rows).map (fun x => ch.zRangeCheck - x) := by
      intro h0
      obtain ⟨x, hx, h0⟩ := List.mem_map.1 h0
      obtain ⟨y, hy, rfl⟩ := (hoff x).1 hx
      exact h3 y hy (sub_eq_zero.1 h0)
    unfold sortedOffsets at hr0
    unfold buildAuxiliaryTrace
    simp only [hadd, Outcome.bind_ok, hz, memoryPermutationColumn, rangeCheckPermutationColumn,
      ExecTrace.batchInverse, hm0, hr0, if_false]
    exact ⟨_, rfl⟩

/-- The prover cannot go on without the auxiliary trace. -/
theorem no_auxiliary {pi : PublicInputs} {options : ProofOptions} {main : List (List FE)} {k : Nat} (hk : 0 < k)
    (hw : ∀ r ∈ main, r.length = k) (h : ∀ ch aux, buildAuxiliaryTrace pi main ch ≠ .ok aux) :
    generateCairoProof env ⟨main.flatten, k⟩ pi options = .panic := by
  cases hp : generateCairoProof env ⟨main.flatten, k⟩ pi options with
  | panic => rfl
  | err e => cases e
  | ok proof =>
    exfalso
    unfold generateCairoProof prove at hp
    simp only [Outcome.bind_eq_ok] at hp
    obtain ⟨A, hA, d, hd, ⟨r1, t1⟩, hr1, -⟩ := hp
    obtain rfl := Outcome.ok.inj hA
    unfold round1 at hr1
    simp only [Outcome.bind_eq_ok] at hr1
    obtain ⟨x, -, aux, haux, -⟩ := hr1
    simp only [air, Outcome.bind_eq_ok] at haux
    obtain ⟨auxRows, haux, -⟩ := haux
    rw [show (⟨main.flatten, k⟩ : TraceTable FE) = ofRows main k from rfl, tableRows_ofRows hk hw] at haux
    exact h _ _ haux

/-- **C70** for Cairo: `generate_cairo_proof` does not look at what the table contains. For a table of the layout with
any contents and any public inputs with range-check bounds and a number of steps between one and the number of rows it
returns a proof, if the public memory can be placed and no denominator is zero for the challenges drawn after the
commitment, the out-of-domain sampling ends and a nonce exists. -/
theorem C70_cairo (hta : env.ta = starkRoots) {pi : PublicInputs} {main : List (List FE)} {options : ProofOptions}
    {a b : Nat} (ha : 1 ≤ a) (hb : 1 ≤ b) (hab : a + 2 * b ≤ 64) (hbl : options.blowupFactor.toNat = 2 ^ b)
    (hsq : ¬ IsSquare (options.cosetOffset : FE)) (hlen : main.length = 2 ^ a)
    (hw : ∀ r ∈ main, r.length = 43 - builtinOffset (hasRcBuiltin pi)) (hsteps : 1 ≤ pi.numSteps)
    (hsteps' : pi.numSteps ≤ 2 ^ a) (hmin : pi.rangeCheckMin ≠ none) (hmax : pi.rangeCheckMax ≠ none)
    (hplace : Placeable pi (2 ^ a))
    (hmem : ∀ root, CommitmentTo env (air (2 ^ a) pi options)
        ⟨main.flatten, 43 - builtinOffset (hasRcBuiltin pi)⟩ root →
      ∀ e ∈ accesses main ++ pi.publicMemory, (challengesAfter env (air (2 ^ a) pi options) root).zMemory
        ≠ e.1 + (challengesAfter env (air (2 ^ a) pi options) root).alphaMemory * e.2)
    (hrc : ∀ root, CommitmentTo env (air (2 ^ a) pi options)
        ⟨main.flatten, 43 - builtinOffset (hasRcBuiltin pi)⟩ root →
      ∀ x ∈ getCols main [OFF_DST, OFF_OP0, OFF_OP1],
        (challengesAfter env (air (2 ^ a) pi options) root).zRangeCheck ≠ ((x.val % 2 ^ 16 : Nat) : FE))
    (hz : SamplingEnds env (air (2 ^ a) pi options))
    (hgrind : ∀ challenge, Grinding.generateNonce env.keccak challenge
      options.grindingFactor.toNat ≠ none) :
    ∃ proof, generateCairoProof env ⟨main.flatten, 43 - builtinOffset (hasRcBuiltin pi)⟩ pi options = .ok proof := by
  have hk : 0 < 43 - builtinOffset (hasRcBuiltin pi) := by cases hasRcBuiltin pi <;> decide
  have hcoset : (options.cosetOffset : FE) ^ 2 ^ (a + b) ≠ 1 := by
    intro h1
    obtain ⟨w, hroot⟩ := Option.isSome_iff_exists.mp (starkRoots.defined (a + b) (by omega)
      (by show _ ≤ 192; omega))
    have hprim := starkRoots.primitive _ w (by omega) hroot
    obtain ⟨i, hi, h2⟩ := hprim.eq_pow_of_pow_eq_one h1
    refine square_notMem' (by omega) hroot hsq (by show _ < 192; omega) 1 (2 ^ (a + b) - i) ?_
    rw [← h2, ← pow_add, Nat.sub_add_cancel hi.le, hprim.pow_eq_one, one_pow]
  refine C70_prover_total (air := air (2 ^ a) pi options) (cairo_setting_of ha hb pi hbl hsq) hab
    (by rw [hta]; show _ ≤ 193; omega) rfl hcoset hk hlen hw (fun ch => ⟨_, air_polynomial _ _ _ ch⟩)
    (fun ch => declared (2 ^ a) pi options ch (by positivity) hsteps') ?_ hz hgrind
  intro root hroot
  obtain ⟨aux, haux⟩ := (C70_auxiliary pi main (challengesAfter env (air (2 ^ a) pi options) root)).2
    ⟨hlen ▸ hplace, fun e he => hmem root hroot e (List.mem_append_left _ (List.mem_of_mem_take he)),
      fun n v _ hv => hmem root hroot (n, v) (List.mem_append_right _ (HMap.mem_of_get?_eq_some hv)), hrc root hroot⟩
  obtain ⟨cs, hcs⟩ := boundary_exists pi (by omega) hmin hmax (n := 2 ^ a) (by positivity) _
    (fun e he => hmem root hroot e (List.mem_append_right _ he))
  obtain ⟨h1, h2⟩ := cairo_joined (n := 2 ^ a) (options := options) hw haux
  exact ⟨_, cs, _, h1, hcs, h2⟩

/-- **C70** for Cairo, the other way: if the public memory cannot be placed, `generate_cairo_proof` panics for every
table of rows of one width and all hash functions. -/
theorem C70_cairo_unplaceable {pi : PublicInputs} {options : ProofOptions} {main : List (List FE)} {k : Nat}
    (hk : 0 < k) (hw : ∀ r ∈ main, r.length = k) (h : ¬ Placeable pi main.length) :
    generateCairoProof env ⟨main.flatten, k⟩ pi options = .panic :=
  no_auxiliary hk hw fun ch aux haux => h ((C70_auxiliary pi main ch).1 ⟨aux, haux⟩).1

/-! ## The hypotheses are met -/

namespace Examples

/-- A table of zeros, except for one cell in the column of the range-check builtin, and a claim that has nothing to do
with it. -/
def anyRows : List (List FE) := [List.replicate 42 0 ++ [7], List.replicate 43 0]

def anyPi : PublicInputs := ⟨1, 8, 8, 1, 8, some 0, some 0, [(.rangeCheck, (20, 21))], [(1, 5)], 1⟩

theorem anyPi_placeable : Placeable anyPi (2 ^ 1) where
  fits := by decide
  output := by intro s e h; cases h
  cells := by
    intro n hn
    rcases hn with ⟨h1, h2⟩ | ⟨s, e, h, -⟩
    · obtain rfl : n = 1 := by
        have : n ≤ 1 := h2
        omega
      exact ⟨5, by decide +kernel⟩
    · cases h

end Examples

/-- The table does not satisfy the constraints (the last example of C79), and there is a proof of it. -/
example : ∃ proof, generateCairoProof Verif.Examples.envFar ⟨Examples.anyRows.flatten, 43⟩ Examples.anyPi
    ProofOptions.defaultTestOptions = .ok proof := by
  have hmem : ∀ n : Fin 256, (accesses Examples.anyRows ++ Examples.anyPi.publicMemory).all (fun e =>
      decide (((UInt8.ofNat n.val + 1).toNat : FE) + (2 ^ 200 : Nat)
        ≠ e.1 + ((((UInt8.ofNat n.val).toNat : FE) + (2 ^ 200 : Nat)) * e.2))) = true := by
    decide +kernel
  have hoff : ∀ n : Fin 256, (getCols Examples.anyRows [OFF_DST, OFF_OP0, OFF_OP1]).all (fun x =>
      decide (((UInt8.ofNat n.val + 1 + 1).toNat : FE) + (2 ^ 200 : Nat) ≠ ((x.val % 2 ^ 16 : Nat) : FE))) = true := by
    decide +kernel
  refine C70_cairo (env := Verif.Examples.envFar) (a := 1) (b := 2) rfl (by norm_num) (by norm_num) (by norm_num)
    (by decide) (by exact_mod_cast three_not_square) rfl (by decide) (by decide) (by decide) (by decide) (by decide)
    Examples.anyPi_placeable ?_ ?_
    (samplingEnds_of (cairo_setting_of (b := 2) (by norm_num) (by norm_num) _ (by decide)
        (by exact_mod_cast three_not_square))
      fun lde trace t h1 h2 => Verif.Examples.sampleZOodFar lde trace t (by rw [h1, h2]; norm_num))
    Verif.Examples.generateNonce_stark
  · intro root _ e he
    have : ∀ t : UInt8, (buildRapChallenges Verif.Examples.envFar (air (2 ^ 1) Examples.anyPi
        ProofOptions.defaultTestOptions) t).1.zMemory ≠ e.1 + (buildRapChallenges Verif.Examples.envFar
        (air (2 ^ 1) Examples.anyPi ProofOptions.defaultTestOptions) t).1.alphaMemory * e.2 := by
      intro t
      have := List.all_eq_true.1 (hmem ⟨t.toNat, t.toNat_lt⟩) e he
      simp only [UInt8.ofNat_toNat, decide_eq_true_eq] at this
      exact this
    exact this _
  · intro root _ x hx
    have : ∀ t : UInt8, (buildRapChallenges Verif.Examples.envFar (air (2 ^ 1) Examples.anyPi
        ProofOptions.defaultTestOptions) t).1.zRangeCheck ≠ ((x.val % 2 ^ 16 : Nat) : FE) := by
      intro t
      have := List.all_eq_true.1 (hoff ⟨t.toNat, t.toNat_lt⟩) x hx
      simp only [UInt8.ofNat_toNat, decide_eq_true_eq] at this
      exact this
    exact this _

/-- Public inputs whose memory does not begin at address one make the prover panic. -/
example : generateCairoProof Verif.Examples.envFar ⟨Examples.anyRows.flatten, 43⟩
    { Examples.anyPi with publicMemory := [(2, 5)] } ProofOptions.defaultTestOptions = .panic :=
  C70_cairo_unplaceable (by norm_num) (by decide) fun h => by
    obtain ⟨v, hv⟩ := h.cells 1 (.inl ⟨le_rfl, le_rfl⟩)
    have h0 : HMap.get? (K := FE) (V := FE) [(2, 5)] ((1 : Nat) : FE) = none := by decide +kernel
    exact absurd (h0.symm.trans hv) (by simp)

end Verif.Props
