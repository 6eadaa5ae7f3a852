import Verif.Props.AnyTrace
import Verif.Props.CairoPanics

/-!
# C70 for the Cairo AIR: exactly when there is a proof of a table
-/

namespace Verif.Props
open CairoAir ExecTrace TraceTable Spec
variable {T : Type} {env : Env FE T}

/-- What a proof says about the first round: the commitment, the auxiliary trace for the challenges drawn after it, and
the boundary constraints. -/
theorem proof_first_round {pi : PublicInputs} {options : ProofOptions} {main : List (List FE)} {k : Nat} (hk : 0 < k)
    (hw : ∀ r ∈ main, r.length = k) {proof : StarkProof FE}
    (hp : generateCairoProof env ⟨main.flatten, k⟩ pi options = .ok proof) :
    ∃ root, CommitmentTo env (air main.length pi options) ⟨main.flatten, k⟩ root ∧
      (∃ aux, buildAuxiliaryTrace pi main (challengesAfter env (air main.length pi options) root) = .ok aux) ∧
      ∃ cs, boundaryConstraints pi main.length (challengesAfter env (air main.length pi options) root) = .ok cs := by
  have hrows : (⟨main.flatten, k⟩ : TraceTable FE).nRows = main.length := nRows_ofRows _ _ hk hw
  unfold generateCairoProof prove at hp
  simp only [Outcome.bind_eq_ok] at hp
  obtain ⟨A, hA, d, hd, ⟨r1, t1⟩, hr1, boundary, hb, -⟩ := hp
  obtain rfl := Outcome.ok.inj hA
  rw [hrows] at hd hr1 hb
  unfold round1 at hr1
  simp only [Outcome.bind_eq_ok] at hr1
  obtain ⟨x, hx, aux, haux, hr1⟩ := hr1
  have hx2 : x.2 = env.tr.append env.tr.init x.1.2.2.2.val := by
    have h := hx
    unfold interpolateAndCommit at h
    simp only [Outcome.bind_eq_ok, Outcome.pure_eq, Outcome.ok.injEq] at h
    obtain ⟨_, -, _, -, _, -, _, -, commit, -, rfl⟩ := h
    rfl
  have hch : r1.rapChallenges = challengesAfter env (air main.length pi options) x.1.2.2.2 := by
    rw [hx2] at hr1
    split at hr1
    · simp only [Outcome.bind_eq_ok, Outcome.pure_eq, Outcome.ok.injEq, Prod.mk.injEq] at hr1
      obtain ⟨_, -, rfl, -⟩ := hr1
      rfl
    · simp only [Outcome.bind_eq_ok, Outcome.pure_eq, Outcome.ok.injEq, Prod.mk.injEq] at hr1
      obtain ⟨_, -, _, -, rfl, -⟩ := hr1
      rfl
  refine ⟨x.1.2.2.2, ⟨d, x, hd, hx, rfl⟩, ?_, boundary, ?_⟩
  · rw [hx2] at haux
    simp only [air, Outcome.bind_eq_ok] at haux
    obtain ⟨auxRows, haux, -⟩ := haux
    rw [show (⟨main.flatten, k⟩ : TraceTable FE) = ofRows main k from rfl, tableRows_ofRows hk hw] at haux
    exact ⟨auxRows, haux⟩
  · rw [← hch]
    exact hb

theorem commitmentTo_unique {F Ch T : Type} [Field F] [DecidableEq F] {env : Env F T} {air : Air F Ch}
    {trace : TraceTable F} {root root' : Commitment} (h : CommitmentTo env air trace root)
    (h' : CommitmentTo env air trace root') : root = root' := by
  obtain ⟨d, r, hd, hr, rfl⟩ := h
  obtain ⟨d', r', hd', hr', rfl⟩ := h'
  cases hd.symm.trans hd'
  cases hr.symm.trans hr'
  rfl

/-- **C70** for Cairo, exactly: for a table of the layout with any contents and parameters that the protocol can work
with, if the out-of-domain sampling ends and a nonce exists,
`generate_cairo_proof` returns a proof exactly when the public inputs have steps and bounds of the range check, the public
memory can be placed, and the challenges drawn after the commitment hit none of the accesses that stay, no cell of the
public memory and none of the offsets, of which the lowest 16 bits are taken. Otherwise it panics. -/
theorem C70_cairo_exactly (hta : env.ta = starkRoots) {pi : PublicInputs} {main : List (List FE)} {options : ProofOptions}
    {a b : Nat} (ha : 1 ≤ a) (hb : 1 ≤ b) (hab : a + 2 * b ≤ 64) (hbl : options.blowupFactor.toNat = 2 ^ b)
    (hsq : ¬ IsSquare (options.cosetOffset : FE)) (hlen : main.length = 2 ^ a) {k : Nat}
    (hk : k = if pi.memorySegments = [] then 34 else 43) (hw : ∀ r ∈ main, r.length = k)
    (hz : SamplingEnds env (air (2 ^ a) pi options))
    (hgrind : ∀ challenge, Grinding.generateNonce env.keccak challenge options.grindingFactor.toNat ≠ none) :
    ∃ root, CommitmentTo env (air (2 ^ a) pi options) ⟨main.flatten, k⟩ root ∧
    let ch := challengesAfter env (air (2 ^ a) pi options) root
    ((∃ proof, generateCairoProof env ⟨main.flatten, k⟩ pi options = .ok proof) ↔
      pi.numSteps ≠ 0 ∧ pi.rangeCheckMin ≠ none ∧ pi.rangeCheckMax ≠ none ∧ Placeable pi (2 ^ a) ∧
      (∀ e ∈ (accesses main).take (4 * 2 ^ a - pi.publicMemory.length) ++ pi.publicMemory,
        ch.zMemory ≠ e.1 + ch.alphaMemory * e.2) ∧
      ∀ x ∈ getCols main [OFF_DST, OFF_OP0, OFF_OP1], ch.zRangeCheck ≠ ((x.val % 2 ^ 16 : Nat) : FE)) := by
  have hk' : k = 43 - builtinOffset (hasRcBuiltin pi) := by
    rw [hk]
    unfold hasRcBuiltin
    cases pi.memorySegments <;> rfl
  subst hk'
  have hkpos : 0 < 43 - builtinOffset (hasRcBuiltin pi) := by cases hasRcBuiltin pi <;> decide
  obtain ⟨d, hd⟩ := domain_exists (ta := env.ta) (air := air (2 ^ a) pi options) ha rfl hbl (by omega)
    (by rw [hta]; show _ ≤ 192; omega)
  obtain ⟨g, w, D⟩ := domain_new (air := air (2 ^ a) pi options) ha rfl hbl hd
  obtain ⟨polys, tree, hx, -⟩ := interpolateAndCommit_ok D hkpos hlen hw env.tr.init
  have hroot : CommitmentTo env (air (2 ^ a) pi options)
      ⟨main.flatten, 43 - builtinOffset (hasRcBuiltin pi)⟩ tree.root := ⟨d, _, hd, hx, rfl⟩
  refine ⟨tree.root, hroot, ?_⟩
  intro ch
  constructor
  · rintro ⟨proof, hp⟩
    obtain ⟨root', hr', ⟨aux, haux⟩, cs, hcs⟩ := proof_first_round hkpos hw hp
    rw [hlen] at hr' haux hcs
    obtain rfl := commitmentTo_unique hroot hr'
    obtain ⟨h1, h2, h3, h4⟩ := (boundary_answers (by positivity)).1 ⟨cs, hcs⟩
    obtain ⟨h5, h6, -, h7⟩ := (C70_auxiliary pi main _).1 ⟨aux, haux⟩
    rw [hlen] at h5 h6
    refine ⟨h1, h2, h3, h5, fun e he => ?_, h7⟩
    rcases List.mem_append.1 he with he | he
    · exact h6 e he
    · exact h4 e he
  · rintro ⟨h1, h2, h3, h4, h5, h6⟩
    have hcoset : (options.cosetOffset : FE) ^ 2 ^ (a + b) ≠ 1 := by
      intro h1
      obtain ⟨w, hroot⟩ := Option.isSome_iff_exists.mp (starkRoots.defined (a + b) (by omega)
        (by show _ ≤ 192; omega))
      have hprim := starkRoots.primitive _ w (by omega) hroot
      obtain ⟨i, hi, h2⟩ := hprim.eq_pow_of_pow_eq_one h1
      refine square_notMem' (by omega) hroot hsq (by show _ < 192; omega) 1 (2 ^ (a + b) - i) ?_
      rw [← h2, ← pow_add, Nat.sub_add_cancel hi.le, hprim.pow_eq_one, one_pow]
    have S := cairo_setting_of ha hb pi hbl hsq
    refine prove_total (air := air (2 ^ a) pi options) ha hab (by rw [hta]; show _ ≤ 193; omega) rfl rfl hbl hb S.offset
      hcoset S.fits hkpos hlen hw (fun ch => ⟨_, air_polynomial _ _ _ ch⟩) ?_ (fun ch bcs h => boundary_columns h) hz hgrind
    intro root' hr'
    obtain rfl := commitmentTo_unique hroot hr'
    obtain ⟨aux, haux⟩ := (C70_auxiliary pi main ch).2
      ⟨hlen ▸ h4, fun e he => h5 e (List.mem_append_left _ (by rw [← hlen]; exact he)),
        fun n v _ hv => h5 (n, v) (List.mem_append_right _ (HMap.mem_of_get?_eq_some hv)), h6⟩
    obtain ⟨cs, hcs⟩ := boundary_exists pi h1 h2 h3 (n := 2 ^ a) (by positivity) ch
      (fun e he => h5 e (List.mem_append_right _ he))
    obtain ⟨h7, h8⟩ := cairo_joined (n := 2 ^ a) (options := options) hw haux
    exact ⟨_, cs, h7, hcs, _, h8⟩

/-- The table of zeros and one seven of C70: without a lower bound of the range check there is no proof, and with it there is
one exactly when the challenges drawn after the commitment do not hit a denominator. -/
example : generateCairoProof Verif.Examples.envFar ⟨Examples.anyRows.flatten, 43⟩
      { Examples.anyPi with rangeCheckMin := none } ProofOptions.defaultTestOptions = .panic ∧
    ∃ root, CommitmentTo Verif.Examples.envFar (air 2 Examples.anyPi ProofOptions.defaultTestOptions)
      ⟨Examples.anyRows.flatten, 43⟩ root ∧
    let ch := challengesAfter Verif.Examples.envFar (air 2 Examples.anyPi ProofOptions.defaultTestOptions) root
    ((∃ proof, generateCairoProof Verif.Examples.envFar ⟨Examples.anyRows.flatten, 43⟩ Examples.anyPi
        ProofOptions.defaultTestOptions = .ok proof) ↔
      (∀ e ∈ (accesses Examples.anyRows).take 7 ++ [(1, 5)], ch.zMemory ≠ e.1 + ch.alphaMemory * e.2) ∧
      ∀ x ∈ getCols Examples.anyRows [OFF_DST, OFF_OP0, OFF_OP1], ch.zRangeCheck ≠ ((x.val % 2 ^ 16 : Nat) : FE)) := by
  have key := fun (pi : PublicInputs) (hs : pi.memorySegments ≠ []) =>
    C70_cairo_exactly (env := Verif.Examples.envFar) (pi := pi) (main := Examples.anyRows)
      (options := ProofOptions.defaultTestOptions) (a := 1) (b := 2) rfl (by norm_num) (by norm_num) (by norm_num)
      (by decide) (by exact_mod_cast three_not_square) rfl (k := 43) (if_neg hs).symm (by decide)
      (samplingEnds_of (cairo_setting_of (b := 2) (by norm_num) (by norm_num) _ (by decide)
          (by exact_mod_cast three_not_square))
        fun lde trace t h1 h2 => Verif.Examples.sampleZOodFar lde trace t (by rw [h1, h2]; norm_num))
      Verif.Examples.generateNonce_stark
  constructor
  · obtain ⟨root, -, h⟩ := key { Examples.anyPi with rangeCheckMin := none } (by decide)
    rcases (generateCairoProof Verif.Examples.envFar ⟨Examples.anyRows.flatten, 43⟩
      { Examples.anyPi with rangeCheckMin := none } ProofOptions.defaultTestOptions).ok_or_panic with ⟨proof, hp⟩ | hp
    · exact absurd rfl (h.1 ⟨proof, hp⟩).2.1
    · exact hp
  · obtain ⟨root, hroot, h⟩ := key Examples.anyPi (by decide)
    refine ⟨root, hroot, h.trans ⟨fun h => h.2.2.2.2, fun h => ⟨by decide, by decide, by decide,
      Examples.anyPi_placeable, h⟩⟩⟩

end Verif.Props
