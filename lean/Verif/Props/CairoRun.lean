import Verif.Spec.Sound
import Verif.Props.CairoPermutation
import Verif.Props.HonestTrace

/-!
# What the traces accepted by the Cairo AIR say about the Cairo machine (C65)
-/

namespace Verif.Props
open Verif.ExecTrace hiding access
open Verif.Spec Verif.CairoAir

variable {pi : PublicInputs} {opts : ProofOptions}

/-- What C65 keeps. If for many challenges there are accepted traces that only differ in their running
products, the memory product is anchored, the selectors of the claimed steps are not zero, the words they
execute have a defined meaning, neither they nor the public memory use address zero, and `fp` starts at its
claimed value, then the claim is true. Missing: the AIR forces none of these conditions
(`C65_false_claim_accepted`, `C65_sorted_after_challenges`, `C65_address_zero_two_values`,
`C26_selector_not_enforced`, `C32_fp_not_pinned`). -/
theorem C65_claims_true_partial {base : List (List FE)} {A : Finset FE} {Z : FE → Finset FE}
    {R : Finset FE} {rows : FE → FE → FE → List (List FE)} (F : FixedTrace pi opts base A Z R rows)
    (hsel : ∀ i, i + 1 < pi.numSteps → cell base i FRAME_SELECTOR ≠ 0)
    (hlegal : ∀ i, i + 1 < pi.numSteps → LegalWord (access base (4 * i)).2)
    (hzero : ∀ k, k < 4 * (pi.numSteps - 1) → (access base k).1 ≠ 0)
    (hpub : ∀ e ∈ pi.publicMemory, e.1 ≠ 0)
    (hfp : (regsAt base 0).fp = pi.fpInit) : ClaimTrue pi := by
  have hcols : 52 ≤ traceColumns (hasRcBuiltin pi) := by
    cases hasRcBuiltin pi <;> simp [traceColumns]
  have hboff : traceColumns (hasRcBuiltin pi) + builtinOffset (hasRcBuiltin pi) = 61 := by
    cases hasRcBuiltin pi <;> simp [traceColumns, builtinOffset, BUILTIN_OFFSET]
  have hcard : ∀ s : Finset FE, s.card ≤ P := fun s => by
    have := Finset.card_le_univ s
    rwa [ZMod.card] at this
  obtain ⟨α₀, hα₀⟩ : A.Nonempty := Finset.card_pos.1 (lt_of_le_of_lt (Nat.zero_le _) F.manyA)
  obtain ⟨z₀, hz₀⟩ : (Z α₀).Nonempty := Finset.card_pos.1 (lt_of_le_of_lt (Nat.zero_le _) (F.manyZ α₀ hα₀))
  obtain ⟨r₀, hr₀⟩ : R.Nonempty := Finset.card_pos.1 (lt_of_le_of_lt (Nat.zero_le _) F.manyR)
  have hacc : ∀ α ∈ A, ∀ z ∈ Z α, ∀ r ∈ R, ∀ k, access (rows α z r) k = access base k := by
    intro α hα z hz r hr k
    have hk : k % 4 < 4 := Nat.mod_lt _ (by decide)
    simp only [access, FRAME_PC, FRAME_INST]
    rw [F.same α hα z hz r hr _ _ (by omega), F.same α hα z hz r hr _ _ (by omega)]
  have hsort : ∀ α ∈ A, ∀ z ∈ Z α, ∀ r ∈ R, ∀ k, sortedAccess (hasRcBuiltin pi) (rows α z r) k =
      sortedAccess (hasRcBuiltin pi) base k := by
    intro α hα z hz r hr k
    have hk : k % 4 < 4 := Nat.mod_lt _ (by decide)
    simp only [sortedAccess, MEMORY_ADDR_SORTED_0, MEMORY_VALUES_SORTED_0]
    rw [F.same α hα z hz r hr _ _ (by omega), F.same α hα z hz r hr _ _ (by omega)]
  have hoff : ∀ α ∈ A, ∀ z ∈ Z α, ∀ r ∈ R, ∀ k, offset (rows α z r) k = offset base k := by
    intro α hα z hz r hr k
    have hk : k % 3 < 3 := Nat.mod_lt _ (by decide)
    simp only [offset, OFF_DST]
    rw [F.same α hα z hz r hr _ _ (by omega)]
  have hsoff : ∀ α ∈ A, ∀ z ∈ Z α, ∀ r ∈ R, ∀ k, sortedOffset (hasRcBuiltin pi) (rows α z r) k =
      sortedOffset (hasRcBuiltin pi) base k := by
    intro α hα z hz r hr k
    have hk : k % 3 < 3 := Nat.mod_lt _ (by decide)
    simp only [sortedOffset, RANGE_CHECK_COL_1]
    rw [F.same α hα z hz r hr _ _ (by omega)]
  -- the accesses and the sorted memory
  have hperm := C28_permutation_sound_partial pi opts base.length (access base)
    (sortedAccess (hasRcBuiltin pi) base) A Z (fun α z => rows α z r₀) (fun _ _ => r₀) F.manyA F.manyZ
    (by
      intro α hα z hz
      refine ⟨F.accepted α hα z hz r₀ hr₀, F.length α hα z hz r₀ hr₀,
        fun k _ => hacc α hα z hz r₀ hr₀ k, fun k _ => hsort α hα z hz r₀ hr₀ k, ?_⟩
      have := F.anchored α hα z hz r₀ hr₀
      simp only [Anchored] at this
      rwa [hacc α hα z hz r₀ hr₀, hsort α hα z hz r₀ hr₀] at this)
  set rows₀ := rows α₀ z₀ r₀ with hrows₀
  have hA₀ : Accepted pi opts rows₀ ⟨α₀, z₀, r₀⟩ := F.accepted α₀ hα₀ z₀ hz₀ r₀ hr₀
  have hlen₀ : rows₀.length = base.length := F.length α₀ hα₀ z₀ hz₀ r₀ hr₀
  have h4P : 4 * base.length ≤ P := by
    have := F.manyZ α₀ hα₀
    have := hcard (Z α₀)
    omega
  obtain ⟨-, hval⟩ := C27_memory_read_only hA₀ (by rw [hlen₀]; exact h4P)
  rw [hlen₀] at hval
  simp only [hrows₀, hsort α₀ hα₀ z₀ hz₀ r₀ hr₀] at hval
  -- the offsets
  have h3P : 3 * base.length + 2 ^ 16 ≤ P := by
    have h1 : (8 * base.length) ^ 2 < P := by
      refine lt_of_le_of_lt ?_ (F.manyA.trans_le (hcard A))
      exact Nat.pow_le_pow_left (by omega) 2
    have h2 : 8 * base.length < 2 ^ 126 := by
      by_contra hc
      have h3 : (2 ^ 126) ^ 2 ≤ (8 * base.length) ^ 2 := Nat.pow_le_pow_left (not_lt.1 hc) 2
      have h4 : P < (2 ^ 126) ^ 2 := by norm_num [P]
      omega
    have h5 : 2 ^ 130 < P := lt_trans (by norm_num) P_gt
    omega
  have hoffperm : ((List.range (3 * base.length)).map (sortedOffset (hasRcBuiltin pi) base)).Perm
      ((List.range (3 * base.length)).map (offset base)) := by
    refine perm_of_products (by simp) R (by simpa using F.manyR) fun r hr => ?_
    obtain ⟨-, -, -, -, -, hprod⟩ := C30_sorted_offsets_bounded_partial (F.accepted α₀ hα₀ z₀ hz₀ r hr)
      (by rw [F.length α₀ hα₀ z₀ hz₀ r hr]; exact h3P)
    rw [F.length α₀ hα₀ z₀ hz₀ r hr] at hprod
    simp only [hoff α₀ hα₀ z₀ hz₀ r hr, hsoff α₀ hα₀ z₀ hz₀ r hr] at hprod
    rw [List.map_map, List.map_map]
    exact hprod
  obtain ⟨lo, hi, -, -, hb, -⟩ := C30_sorted_offsets_bounded_partial hA₀ (by rw [hlen₀]; exact h3P)
  rw [hlen₀] at hb
  simp only [hrows₀, hsoff α₀ hα₀ z₀ hz₀ r₀ hr₀] at hb
  have h16 : ∀ k < 3 * base.length, (offset base k).val < 2 ^ 16 := by
    intro k hk
    obtain ⟨j, hj, hjk⟩ := List.mem_map.1
      (hoffperm.mem_iff.2 (List.mem_map.2 ⟨k, List.mem_range.2 hk, rfl⟩))
    rw [← hjk]
    exact lt_of_le_of_lt (hb j (List.mem_range.1 hj)).2 hi.toNat_lt
  -- the memory
  classical
  let m : FE → FE := fun a =>
    if h : ∃ k < 4 * base.length, (sortedAccess (hasRcBuiltin pi) base k).1 = a then
      (sortedAccess (hasRcBuiltin pi) base h.choose).2 else 0
  have hm : ∀ k < 4 * base.length, m (sortedAccess (hasRcBuiltin pi) base k).1 =
      (sortedAccess (hasRcBuiltin pi) base k).2 := by
    intro k hk
    have hex : ∃ j < 4 * base.length, (sortedAccess (hasRcBuiltin pi) base j).1 =
        (sortedAccess (hasRcBuiltin pi) base k).1 := ⟨k, hk, rfl⟩
    simp only [m]
    rw [dif_pos hex]
    exact hval _ hex.choose_spec.1 _ hk hex.choose_spec.2
  have hmem : ∀ e : FE × FE, e.1 ≠ 0 →
      e ∈ (List.range (4 * base.length)).map (access base) ++ pi.publicMemory → m e.1 = e.2 := by
    intro e he hin
    rcases List.mem_append.1 (hperm.mem_iff.2 hin) with h | h
    · obtain ⟨k, hk, rfl⟩ := List.mem_map.1 h
      exact hm k (List.mem_range.1 hk)
    · rw [List.eq_of_mem_replicate h] at he
      exact absurd rfl he
  obtain ⟨hpos, hb1, hb2, hb3, hb4⟩ := C32_boundary_partial hA₀
  have hsteps := hA₀.steps
  rw [hlen₀] at hsteps
  have hregs : ∀ i, regsAt rows₀ i = regsAt base i := by
    intro i
    simp only [regsAt, hrows₀, FRAME_PC, FRAME_AP, FRAME_FP]
    rw [F.same α₀ hα₀ z₀ hz₀ r₀ hr₀ _ _ (by omega), F.same α₀ hα₀ z₀ hz₀ r₀ hr₀ _ _ (by omega),
      F.same α₀ hα₀ z₀ hz₀ r₀ hr₀ _ _ (by omega)]
  rw [hregs] at hb1 hb2 hb3 hb4
  have hmacc : ∀ k < 4 * (pi.numSteps - 1), m (access base k).1 = (access base k).2 := fun k hk =>
    hmem _ (hzero k hk) (List.mem_append_left _ (List.mem_map.2 ⟨k, List.mem_range.2 (by omega), rfl⟩))
  refine ⟨m, regsAt base, fun e he => hmem e (hpub e he) (List.mem_append_right _ he), ?_,
    ⟨hb1, hb2, hfp⟩, hb3, hb4⟩
  intro i hi
  have := C26_selected_steps_partial hA₀ m i (by omega)
    (by
      rw [F.same α₀ hα₀ z₀ hz₀ r₀ hr₀ _ _ (by unfold FRAME_SELECTOR; omega)]
      exact hsel i hi)
    (by
      intro k hk
      rw [hoff α₀ hα₀ z₀ hz₀ r₀ hr₀]
      exact h16 _ (by omega))
    (by
      intro k hk
      rw [hacc α₀ hα₀ z₀ hz₀ r₀ hr₀]
      exact hmacc _ (by omega))
    (by
      rw [hregs]
      have h0 := hmacc (4 * i) (by omega)
      have e : (access base (4 * i)).1 = (regsAt base i).pc := by
        simp [access, regsAt]
      rw [e] at h0
      rw [h0]
      exact hlegal i hi)
  rwa [hregs, hregs] at this

/-- An honest run has a main trace of the expected width, and, for all challenges that avoid the poles, an
auxiliary trace with which it is accepted. -/
theorem honest_accepted {mem : CairoMemory} {m : FE → FE} {states : List RegistersState}
    (run : HonestRun mem m states) {size : Nat} {segs : MemorySegmentMap} {pi pi' : PublicInputs}
    (hpi : fromRegsAndMem states mem size segs = .ok pi) (hsize : size < 2 ^ 64)
    (hzero : mem.get? 0 = none) (hpc : ∃ t ∈ states, t.pc ≤ size)
    (hsegs : segs = [] ∨ ∃ r, segs.get? .rangeCheck = some r) (hb : BuiltinValues mem segs)
    (hout : OutputAfterProgram size segs) (hcov : OutputCovered m states size segs)
    {main : List (List FE)} (hmain : buildMainTrace states mem pi = .ok (main, pi')) :
    pi'.publicMemory = pi.publicMemory ∧ 0 < main.length ∧
    (∀ r ∈ main, r.length = 43 - builtinOffset (hasRcBuiltin pi')) ∧
    ∀ (opts : ProofOptions) (ch : RAPChallenges FE),
      (∀ e ∈ accesses main ++ pi.publicMemory, ch.zMemory ≠ e.1 + ch.alphaMemory * e.2) →
      (∀ x ∈ getCols main [OFF_DST, OFF_OP0, OFF_OP1], ch.zRangeCheck ≠ x) →
      ∃ aux, buildAuxiliaryTrace pi' main ch = .ok aux ∧
        Accepted pi' opts (List.zipWith (· ++ ·) main aux) ch := by
  obtain ⟨-, -, -, -, -, -, -, -, hns, hms⟩ := fromRegsAndMem_regs hpi
  obtain ⟨exec, rcHoles, lo, hi, holes, last1, last2, k, M⟩ := buildMainTrace_ok hmain
  obtain ⟨-, -, hset, h16, -⟩ := main_rows run (by rw [hms]; exact hb) M
  have hpipm : pi'.publicMemory = pi.publicMemory := by rw [M.pi_eq]
  have hpims : pi'.memorySegments = pi.memorySegments := by rw [M.pi_eq]
  have hlen : main.length = _ := congrArg List.length M.rows_eq
  rw [List.length_append, List.length_replicate] at hlen
  have hk := M.k_ge
  have hw : mainWidth pi = 43 - builtinOffset (hasRcBuiltin pi') := by
    unfold mainWidth hasRcBuiltin
    rw [hpims, hms]
    rcases hsegs with rfl | ⟨r, hr⟩
    · rfl
    · rw [hr]
      have hne : segs.isEmpty = false := by
        cases segs with
        | nil => cases hr
        | cons a t => rfl
      rw [hne]; rfl
  obtain ⟨-, -, -, hwid⟩ := M.width
  rw [hw] at hwid
  refine ⟨hpipm, by omega, hwid, fun opts ch hmem hrc => ?_⟩
  obtain ⟨aux, haux⟩ := aux_exists hpi hsize hout hpipm hpims (rows := main) (by omega)
    (fun x hx => lt_of_le_of_lt ((hset x).1 hx).2 h16) ch hmem hrc
  obtain ⟨hrect, hsat⟩ := honest_satisfies run M hpi hsize hb hout hzero hpc hcov hw opts haux
  have hauxlen : aux.length = main.length := by
    obtain ⟨_, _, _, _, _, A⟩ := buildAuxiliaryTrace_ok haux; exact A.len
  have hfull : (List.zipWith (· ++ ·) main aux).length = main.length := by simp; omega
  refine ⟨aux, haux, hrect, ?_, hsat⟩
  have : pi'.numSteps = states.length := by rw [M.pi_eq]; exact hns
  rw [this, hfull, hlen]
  have := (exec_width M.exec_eq).1
  simp only [List.length_append]; omega

/-- The first entry of the memory running product that the prover builds. -/
theorem aux_anchored {pi : PublicInputs} {hasRc : Bool} {main aux : List (List FE)} {ch : RAPChallenges FE}
    (hpos : 0 < main.length) (hw : ∀ r ∈ main, r.length = 43 - builtinOffset hasRc)
    (haux : buildAuxiliaryTrace pi main ch = .ok aux) :
    Anchored hasRc (List.zipWith (· ++ ·) main aux) ch := by
  obtain ⟨addrs, vals, pcol, rcol, sorted, A⟩ := buildAuxiliaryTrace_ok haux
  obtain ⟨-, ha, hv, hp, -⟩ := A.cells hw hpos
  have hacc := fullRow_access (aux := aux) hw hpos 0 (by decide)
  have ha := ha 0 (by decide)
  have hv := hv 0 (by decide)
  have hp := hp 0 (by decide)
  simp only [Nat.mul_zero, Nat.add_zero] at ha hv hp hacc
  have e1 : sortedAccess hasRc (List.zipWith (· ++ ·) main aux) 0 = sorted.getD 0 (0, 0) := by
    simp only [sortedAccess, Nat.zero_div, Nat.zero_mod, Nat.add_zero, cell_full A.len hpos]
    rw [ha, hv]
  have e2 : runningProduct hasRc (List.zipWith (· ++ ·) main aux) 0 = pcol.getD 0 0 := by
    simp only [runningProduct, Nat.zero_div, Nat.zero_mod, Nat.add_zero, cell_full A.len hpos]
    rw [hp]
  have e3 : access (List.zipWith (· ++ ·) main aux) 0 = (accesses main).getD 0 (0, 0) := by
    simp only [access, Nat.zero_div, Nat.zero_mod, Nat.add_zero, cell_full A.len hpos]
    rw [hacc]
  unfold Anchored
  rw [e1, e2, e3]
  change memFactor ch _ * _ = memFactor ch _
  have hl := length_accesses main
  have hs := A.sorted_len
  obtain ⟨-, h1, -⟩ := runCol _ _ (by simp [hl, hs]) A.mem_ne _ A.pcol_eq
  have := h1 0 (by simp [hl]; omega)
  obtain ⟨x, xs, hx⟩ := List.exists_cons_of_ne_nil (List.ne_nil_of_length_pos (l := sorted) (by omega))
  obtain ⟨y, ys, hy⟩ := List.exists_cons_of_ne_nil
    (List.ne_nil_of_length_pos (l := accesses main) (by omega))
  rw [hx, hy] at this ⊢
  simpa [mul_comm] using this

/-- The prover's traces for two challenges agree except in the running products. -/
theorem aux_same {pi : PublicInputs} {hasRc : Bool} {main aux aux' : List (List FE)}
    {ch ch' : RAPChallenges FE} (hw : ∀ r ∈ main, r.length = 43 - builtinOffset hasRc)
    (haux : buildAuxiliaryTrace pi main ch = .ok aux)
    (haux' : buildAuxiliaryTrace pi main ch' = .ok aux') (i c : Nat) (hc : c + 7 < traceColumns hasRc) :
    cell (List.zipWith (· ++ ·) main aux) i c = cell (List.zipWith (· ++ ·) main aux') i c := by
  obtain ⟨addrs, vals, pcol, rcol, sorted, A⟩ := buildAuxiliaryTrace_ok haux
  obtain ⟨addrs', vals', pcol', rcol', sorted', A'⟩ := buildAuxiliaryTrace_ok haux'
  have hp := A.pub.symm.trans A'.pub
  have hboff : traceColumns hasRc + builtinOffset hasRc = 61 := by
    cases hasRc <;> simp [traceColumns, builtinOffset, BUILTIN_OFFSET]
  have h9 : builtinOffset hasRc ≤ 9 := by cases hasRc <;> decide
  simp only [Outcome.ok.injEq, Prod.mk.injEq] at hp
  have hs : sorted = sorted' := by rw [A.sorted_eq, A'.sorted_eq, hp.1, hp.2]
  subst hs
  by_cases hi : i < main.length
  · rw [cell_full A.len hi, cell_full A'.len hi]
    by_cases hm : c < 43 - builtinOffset hasRc
    · rw [fullRow_main hw hi hm, fullRow_main hw hi hm]
    · rw [fullRow_aux hw hi (by omega), fullRow_aux hw hi (by omega)]
      generalize hd : c - (43 - builtinOffset hasRc) = d
      have hd' : d < 11 := by omega
      by_cases h3 : d < 3
      · rw [A.offs i hi d h3, A'.offs i hi d h3]
      by_cases h7 : d < 7
      · obtain ⟨k, rfl⟩ : ∃ k, d = 3 + k := ⟨d - 3, by omega⟩
        rw [A.addr i hi k (by omega), A'.addr i hi k (by omega)]
      · obtain ⟨k, rfl⟩ : ∃ k, d = 7 + k := ⟨d - 7, by omega⟩
        rw [A.val i hi k (by omega), A'.val i hi k (by omega)]
  · unfold cell
    rw [List.getD_eq_default (List.zipWith _ main aux) _ (by rw [List.length_zipWith]; omega),
      List.getD_eq_default (List.zipWith _ main aux') _ (by rw [List.length_zipWith]; omega)]

/-- **C65**, completeness: the traces that the prover builds for an honest run, one per triple of challenges
that avoid the poles, are such a family. -/
theorem C65_honest_fixed_trace {mem : CairoMemory} {m : FE → FE} {states : List RegistersState}
    (run : HonestRun mem m states) {size : Nat} {segs : MemorySegmentMap} {pi pi' : PublicInputs}
    (hpi : fromRegsAndMem states mem size segs = .ok pi) (hsize : size < 2 ^ 64)
    (hzero : mem.get? 0 = none) (hpc : ∃ t ∈ states, t.pc ≤ size)
    (hsegs : segs = [] ∨ ∃ r, segs.get? .rangeCheck = some r) (hb : BuiltinValues mem segs)
    (hout : OutputAfterProgram size segs) (hcov : OutputCovered m states size segs)
    {main : List (List FE)} (hmain : buildMainTrace states mem pi = .ok (main, pi'))
    (hlen : (2 * (4 * main.length + pi.publicMemory.length)) ^ 2 < P) (opts : ProofOptions) :
    ∃ base A Z R rows, FixedTrace pi' opts base A Z R rows ∧
      (∀ α ∈ A, ∀ z ∈ Z α, ∀ r ∈ R, ∃ aux, buildAuxiliaryTrace pi' main ⟨α, z, r⟩ = .ok aux ∧
        rows α z r = List.zipWith (· ++ ·) main aux) ∧
      ∀ i c, c < 34 → cell base i c = cell main i c := by
  classical
  obtain ⟨hpm, hpos, hw, hall⟩ := honest_accepted run hpi hsize hzero hpc hsegs hb hout hcov hmain
  let keys : FE → Finset FE := fun α =>
    ((accesses main ++ pi.publicMemory).map fun e => e.1 + α * e.2).toFinset
  let offs : Finset FE := (getCols main [OFF_DST, OFF_OP0, OFF_OP1]).toFinset
  have hex : ∀ α z r : FE, ∃ aux, z ∉ keys α → r ∉ offs → buildAuxiliaryTrace pi' main ⟨α, z, r⟩ = .ok aux ∧
      Accepted pi' opts (List.zipWith (· ++ ·) main aux) ⟨α, z, r⟩ := by
    intro α z r
    by_cases h1 : z ∈ keys α
    · exact ⟨[], fun h => absurd h1 h⟩
    by_cases h2 : r ∈ offs
    · exact ⟨[], fun _ h => absurd h2 h⟩
    obtain ⟨aux, h3, h4⟩ := hall opts ⟨α, z, r⟩
      (by
        rintro e he hz
        apply h1
        simp only [keys, List.mem_toFinset, List.mem_map]
        exact ⟨e, he, hz.symm⟩)
      (by
        rintro x hx hr
        apply h2
        simp only [offs, List.mem_toFinset]
        have : r = x := hr
        rw [this]; exact hx)
    exact ⟨aux, fun _ _ => ⟨h3, h4⟩⟩
  choose aux haux using hex
  have hN : 0 < 4 * main.length + pi.publicMemory.length := by omega
  have hP2 : 4 * (4 * main.length + pi.publicMemory.length) ≤ P := by
    refine le_trans ?_ hlen.le
    have : (2 * (4 * main.length + pi.publicMemory.length)) ^ 2 =
      4 * (4 * main.length + pi.publicMemory.length) * (4 * main.length + pi.publicMemory.length) := by ring
    rw [this]
    exact Nat.le_mul_of_pos_right _ hN
  have hkc : ∀ α, (keys α).card ≤ 4 * main.length + pi.publicMemory.length := fun α => by
    refine (List.toFinset_card_le _).trans ?_
    rw [List.length_map, List.length_append, length_accesses]
  have hoc : offs.card ≤ 3 * main.length := by
    refine (List.toFinset_card_le _).trans ?_
    rw [length_getCols]; simp [mul_comm]
  have hZ : ∀ α, 4 * main.length + pi.publicMemory.length < (Finset.univ \ keys α).card := by
    intro α
    have h1 := Finset.le_card_sdiff (keys α) Finset.univ
    rw [Finset.card_univ, ZMod.card] at h1
    have := hkc α
    omega
  have hR : 3 * main.length < (Finset.univ \ offs).card := by
    have h1 := Finset.le_card_sdiff offs Finset.univ
    rw [Finset.card_univ, ZMod.card] at h1
    omega
  have hnot : ∀ {s : Finset FE} {x : FE}, x ∈ Finset.univ \ s → x ∉ s := fun h => (Finset.mem_sdiff.1 h).2
  obtain ⟨z₀, hz₀⟩ : (Finset.univ \ keys 0).Nonempty := Finset.card_pos.1 (by have := hZ 0; omega)
  obtain ⟨r₀, hr₀⟩ : (Finset.univ \ offs).Nonempty := Finset.card_pos.1 (by omega)
  obtain ⟨hb0, -⟩ := haux 0 z₀ r₀ (hnot hz₀) (hnot hr₀)
  have hblen : (List.zipWith (· ++ ·) main (aux 0 z₀ r₀)).length = main.length := by
    obtain ⟨_, _, _, _, _, A⟩ := buildAuxiliaryTrace_ok hb0
    rw [List.length_zipWith, A.len, Nat.min_self]
  refine ⟨List.zipWith (· ++ ·) main (aux 0 z₀ r₀), Finset.univ, fun α => Finset.univ \ keys α,
    Finset.univ \ offs, fun α z r => List.zipWith (· ++ ·) main (aux α z r), ?_, ?_, ?_⟩
  · refine ⟨?_, ?_, ?_, ?_, ?_, ?_, ?_⟩
    · rw [hblen, hpm, Finset.card_univ, ZMod.card]; exact hlen
    · intro α _; rw [hblen, hpm]; exact hZ α
    · rw [hblen]; exact hR
    · intro α _ z hz r hr
      exact (haux α z r (hnot hz) (hnot hr)).2
    · intro α _ z hz r hr
      exact aux_anchored hpos hw (haux α z r (hnot hz) (hnot hr)).1
    · intro α _ z hz r hr
      obtain ⟨_, _, _, _, _, A⟩ := buildAuxiliaryTrace_ok (haux α z r (hnot hz) (hnot hr)).1
      rw [hblen, List.length_zipWith, A.len, Nat.min_self]
    · intro α _ z hz r hr i c hc
      exact aux_same hw (haux α z r (hnot hz) (hnot hr)).1 hb0 i c hc
  · intro α _ z hz r hr
    exact ⟨_, (haux α z r (hnot hz) (hnot hr)).1, rfl⟩
  · intro i c hc
    have h9 : builtinOffset (hasRcBuiltin pi') ≤ 9 := by cases hasRcBuiltin pi' <;> decide
    obtain ⟨_, _, _, _, _, A⟩ := buildAuxiliaryTrace_ok hb0
    by_cases hi : i < main.length
    · rw [cell_full A.len hi, fullRow_main hw hi (by omega)]; rfl
    · unfold cell
      rw [List.getD_eq_default (List.zipWith _ main _) _ (by rw [hblen]; omega),
        List.getD_eq_default main _ (by omega)]

/-- The hypotheses of `C65_claims_true_partial` hold for the public inputs of `simple_program` and the traces
its prover builds. -/
example : ∃ base A Z R rows, FixedTrace Examples.main0.2 ⟨4, 3, 3, 1⟩ base A Z R rows ∧
    (∀ i, i + 1 < Examples.main0.2.numSteps → cell base i FRAME_SELECTOR ≠ 0) ∧
    (∀ i, i + 1 < Examples.main0.2.numSteps → LegalWord (access base (4 * i)).2) ∧
    (∀ k, k < 4 * (Examples.main0.2.numSteps - 1) → (access base k).1 ≠ 0) ∧
    (∀ e ∈ Examples.main0.2.publicMemory, e.1 ≠ 0) ∧
    (regsAt base 0).fp = Examples.main0.2.fpInit ∧ Examples.main0.2.numSteps = 3 := by
  have hn : Examples.main0.2.numSteps = 3 := by decide +kernel
  obtain ⟨base, A, Z, R, rows, F, -, hsame⟩ := C65_honest_fixed_trace example_run (size := 5) (segs := [])
    Examples.pi0_eq (by decide) (by decide +kernel) ⟨⟨1, 8, 8⟩, by decide, by decide⟩ (Or.inl rfl)
    (fun _ _ h => by cases h) (fun _ _ h => by cases h) (ExecTrace.covered_of_no_output rfl)
    (main := Examples.main0.1) (pi' := Examples.main0.2) (by rw [Examples.main0_eq, Prod.mk.eta])
    (by
      have h1 : Examples.main0.1.length = 8 := by decide +kernel
      have h2 : Examples.pi0.publicMemory.length = 5 := by decide +kernel
      rw [h1, h2]
      exact lt_trans (by norm_num) P_gt) ⟨4, 3, 3, 1⟩
  have hacc : ∀ k, access base k = access Examples.main0.1 k := by
    intro k
    have hk : k % 4 < 4 := Nat.mod_lt _ (by decide)
    simp only [access, FRAME_PC, FRAME_INST]
    rw [hsame _ _ (by omega), hsame _ _ (by omega)]
  refine ⟨base, A, Z, R, rows, F, ?_, ?_, ?_, ?_, ?_, hn⟩
  · intro i hi
    rw [hsame _ _ (by decide)]
    rw [hn] at hi
    obtain rfl | rfl : i = 0 ∨ i = 1 := by omega
    · decide +kernel
    · decide +kernel
  · intro i hi
    rw [hacc]
    rw [hn] at hi
    obtain rfl | rfl : i = 0 ∨ i = 1 := by omega
    · unfold LegalWord; decide +kernel
    · unfold LegalWord; decide +kernel
  · intro k hk
    rw [hacc]
    rw [hn] at hk
    have h : (List.range 8).all (fun k => decide ((access Examples.main0.1 k).1 ≠ 0)) = true := by
      decide +kernel
    simpa using List.all_eq_true.1 h k (List.mem_range.2 (by omega))
  · have h : (Examples.main0.2.publicMemory.all fun e => decide (e.1 ≠ 0)) = true := by decide +kernel
    intro e he
    simpa using List.all_eq_true.1 h e he
  · simp only [regsAt]
    rw [hsame _ _ (by decide)]
    decide +kernel

/-- C65 is false: `simple_program` runs from `pc = 1` to `pc = 5` in three states whatever the rest of the
memory is, but for every other final `pc`, and for all challenges that avoid the poles, the claim has an
accepted trace. -/
theorem C65_false_claim_accepted (x : FE) (hx : x ≠ 5) :
    ¬ ClaimTrue { Examples.main0.2 with pcFinal := x } ∧
    ∀ (opts : ProofOptions) (ch : RAPChallenges FE),
      (∀ e ∈ Examples.main0.2.publicMemory, ch.zMemory ≠ e.1 + ch.alphaMemory * e.2) →
      ch.zMemory ≠ 1 → ch.zMemory ≠ x →
      ∃ rows, Accepted { Examples.main0.2 with pcFinal := x } opts rows ch := by
  have hn : Examples.main0.2.numSteps = 3 := by decide +kernel
  constructor
  · rintro ⟨m, s, hpub, hstep, ⟨h0, -, -⟩, h2, -⟩
    simp only [hn] at hstep h2
    have m1 : m 1 = 0x480680017fff8000 := hpub ((1 : FE), 0x480680017fff8000) (by
      show ((1 : FE), (0x480680017fff8000 : FE)) ∈ Examples.main0.2.publicMemory
      decide +kernel)
    have m3 : m 3 = 4613515612218425343 := hpub ((3 : FE), 4613515612218425343) (by
      show ((3 : FE), (4613515612218425343 : FE)) ∈ Examples.main0.2.publicMemory
      decide +kernel)
    have e0 : (s 0).pc = 1 := h0.trans (by show Examples.main0.2.pcInit = 1; decide +kernel)
    have key : ∀ (i : Nat) (w : FE), i + 1 < 3 → m (s i).pc = w →
        (Instr.ofWord w.val).pcUpdate = 0 ∧ instrSize (Instr.ofWord w.val) = 2 →
        (s (i + 1)).pc = (s i).pc + 2 := by
      intro i w hi hw hpc
      obtain ⟨-, hs⟩ := hstep i hi
      rw [hw] at hs
      rw [hs.pc, nextPc, if_neg (by rw [hpc.1]; decide), if_neg (by rw [hpc.1]; decide),
        if_neg (by rw [hpc.1]; decide), hpc.2]
    have e1 : (s 1).pc = 3 := by
      rw [key 0 0x480680017fff8000 (by omega) (by rw [e0]; exact m1) (by decide +kernel), e0]; decide +kernel
    have e2 : (s 2).pc = 5 := by
      rw [key 1 4613515612218425343 (by omega) (by rw [e1]; exact m3) (by decide +kernel), e1]; decide +kernel
    exact hx (h2.symm.trans e2)
  · intro opts ch hpub h1 h2
    obtain ⟨rows, -, hacc, -⟩ := C29_product_not_anchored { Examples.main0.2 with pcFinal := x } opts ch 8
      (fun k => (if k = 0 then 1 else x, 0)) (fun _ => (0, 0))
      (fun i => if i = 0 then Examples.main0.2.apInit else Examples.main0.2.apFinal) (fun _ => 0)
      32766 32769 (by show Examples.main0.2.numSteps ≠ 0; omega) (by show Examples.main0.2.numSteps ≤ 8; omega)
      (by show Examples.main0.2.rangeCheckMin = _; decide +kernel)
      (by show Examples.main0.2.rangeCheckMax = _; decide +kernel) (by decide) (by decide) hpub
      (by
        intro k _
        show ch.zMemory ≠ (if k = 0 then 1 else x) + ch.alphaMemory * 0
        rw [mul_zero, add_zero]
        split
        · exact h1
        · exact h2)
      (fun _ _ => Or.inl ⟨rfl, rfl⟩)
      (by
        show (if (0 : Nat) = 0 then (1 : FE) else x) = Examples.main0.2.pcInit
        rw [if_pos rfl]; decide +kernel)
      (by
        show (if 4 * (Examples.main0.2.numSteps - 1) = 0 then (1 : FE) else x) = x
        rw [hn, if_neg (by omega)])
      rfl
      (by
        show (if Examples.main0.2.numSteps - 1 = 0 then Examples.main0.2.apInit else
          Examples.main0.2.apFinal) = Examples.main0.2.apFinal
        rw [hn, if_neg (by omega)])
    exact ⟨rows, hacc⟩

/-- A trace is anchored when the products over all accesses agree. -/
theorem anchored_of_product {rows : List (List FE)} {ch : RAPChallenges FE} (h : Accepted pi opts rows ch)
    (hz : ∀ k, 0 < k → k < 4 * rows.length →
      ch.zMemory ≠ (access rows k).1 + ch.alphaMemory * (access rows k).2)
    (hprod : ((List.range (4 * rows.length)).map fun k => ch.zMemory -
        ((sortedAccess (hasRcBuiltin pi) rows k).1 +
          ch.alphaMemory * (sortedAccess (hasRcBuiltin pi) rows k).2)).prod *
        (ch.zMemory ^ pi.publicMemory.length /
          (pi.publicMemory.map fun e => ch.zMemory - (e.1 + ch.alphaMemory * e.2)).prod) =
      ((List.range (4 * rows.length)).map fun k => ch.zMemory -
        ((access rows k).1 + ch.alphaMemory * (access rows k).2)).prod) :
    Anchored (hasRcBuiltin pi) rows ch := by
  have hpos := h.pos
  have hrest := C29_rest_compared_partial h
  obtain ⟨N, hN⟩ : ∃ N, 4 * rows.length = N + 1 := ⟨4 * rows.length - 1, by omega⟩
  rw [hN] at hprod hz hrest
  rw [show N + 1 - 1 = N from rfl] at hrest
  simp only [List.range_succ_eq_map, List.map_cons, List.map_map, List.prod_cons] at hprod
  unfold Anchored
  have hne : ((List.range N).map fun k => ch.zMemory -
      ((access rows (k + 1)).1 + ch.alphaMemory * (access rows (k + 1)).2)).prod ≠ 0 := by
    intro h0
    obtain ⟨k, hk, h1⟩ := List.mem_map.1 (List.prod_eq_zero_iff.1 h0)
    exact hz (k + 1) (by omega) (by have := List.mem_range.1 hk; omega) (sub_eq_zero.1 h1)
  apply mul_right_cancel₀ hne
  have e1 : ((fun k => ch.zMemory - ((sortedAccess (hasRcBuiltin pi) rows k).1 +
          ch.alphaMemory * (sortedAccess (hasRcBuiltin pi) rows k).2)) ∘ Nat.succ) = fun k => ch.zMemory -
      ((sortedAccess (hasRcBuiltin pi) rows (k + 1)).1 +
          ch.alphaMemory * (sortedAccess (hasRcBuiltin pi) rows (k + 1)).2) := rfl
  have e2 : ((fun k => ch.zMemory - ((access rows k).1 + ch.alphaMemory * (access rows k).2)) ∘ Nat.succ)
      = fun k => ch.zMemory - ((access rows (k + 1)).1 + ch.alphaMemory * (access rows (k + 1)).2) := rfl
  rw [e1, e2] at hprod
  rw [← hprod]
  linear_combination -(ch.zMemory - ((sortedAccess (hasRcBuiltin pi) rows 0).1 +
    ch.alphaMemory * (sortedAccess (hasRcBuiltin pi) rows 0).2)) * hrest

/-- Anchoring the product would not be enough, because the sorted memory is committed after the challenges
are drawn: whatever the accesses are, for every challenge outside a small set there is an accepted trace with
these accesses whose product is anchored. Its sorted memory is made to fit the challenge. -/
theorem C65_sorted_after_challenges (pi : PublicInputs) (opts : ProofOptions) (ch : RAPChallenges FE)
    (n : Nat) (acc : Nat → FE × FE) (ap fp : Nat → FE) (lo hi : UInt16)
    (hsteps : pi.numSteps ≠ 0) (hn : pi.numSteps ≤ n)
    (hlo : pi.rangeCheckMin = some lo) (hhi : pi.rangeCheckMax = some hi)
    (hr : lo.toNat ≤ hi.toNat) (hr' : hi.toNat < lo.toNat + 3 * n)
    (hpub : ∀ e ∈ pi.publicMemory, ch.zMemory ≠ e.1 + ch.alphaMemory * e.2)
    (hacc : ∀ k < 4 * n, ch.zMemory ≠ (acc k).1 + ch.alphaMemory * (acc k).2)
    (hα : ch.alphaMemory ≠ 0) (hz : ∀ k : Nat, k < 4 * n → ch.zMemory ≠ (k : FE))
    (hpc : (acc 0).1 = pi.pcInit) (hpc' : (acc (4 * (pi.numSteps - 1))).1 = pi.pcFinal)
    (hap : ap 0 = pi.apInit) (hap' : ap (pi.numSteps - 1) = pi.apFinal) :
    ∃ rows, rows.length = n ∧ Accepted pi opts rows ch ∧ Anchored (hasRcBuiltin pi) rows ch ∧
      (∀ k < 4 * n, access rows k = acc k) ∧
      ∀ i < n, cell rows i FRAME_AP = ap i ∧ cell rows i FRAME_FP = fp i := by
  have hn0 : 0 < n := by omega
  obtain ⟨N, hN⟩ : ∃ N, 4 * n = N + 1 := ⟨4 * n - 1, by omega⟩
  have hz0 : ch.zMemory ≠ 0 := by simpa using hz 0 (by omega)
  set D := ((List.range N).map fun k : Nat => ch.zMemory - (k : FE)).prod with hD
  set W := ch.zMemory ^ pi.publicMemory.length /
    (pi.publicMemory.map fun e => ch.zMemory - (e.1 + ch.alphaMemory * e.2)).prod with hW
  set T := ((List.range (4 * n)).map fun k =>
    ch.zMemory - ((acc k).1 + ch.alphaMemory * (acc k).2)).prod with hT
  have hD0 : D ≠ 0 := by
    intro h0
    obtain ⟨k, hk, h1⟩ := List.mem_map.1 (List.prod_eq_zero_iff.1 h0)
    exact hz k (by have := List.mem_range.1 hk; omega) (sub_eq_zero.1 h1)
  have hW0 : W ≠ 0 := by
    refine div_ne_zero (pow_ne_zero _ hz0) ?_
    intro h0
    obtain ⟨e, he, h1⟩ := List.mem_map.1 (List.prod_eq_zero_iff.1 h0)
    exact hpub e he (sub_eq_zero.1 h1)
  let v : FE := (ch.zMemory - (N : FE) - T / (D * W)) / ch.alphaMemory
  have hv : (ch.zMemory - ((N : FE) + ch.alphaMemory * v)) * (D * W) = T := by
    have : ch.alphaMemory * v = ch.zMemory - (N : FE) - T / (D * W) := mul_div_cancel₀ _ hα
    rw [this]
    have hDW := mul_ne_zero hD0 hW0
    field_simp
    ring
  obtain ⟨rows, h1, h2, h3, h4, h5⟩ := C29_product_not_anchored pi opts ch n acc
    (fun k => ((k : FE), if k = N then v else 0)) ap fp lo hi hsteps hn hlo hhi hr hr' hpub hacc
    (fun k _ => Or.inr (by push_cast; rfl)) hpc hpc' hap hap'
  refine ⟨rows, h1, h2, ?_, h3, h5⟩
  refine anchored_of_product h2 ?_ ?_
  · intro k _ hk
    rw [h1] at hk
    rw [h3 k hk]; exact hacc k hk
  · rw [h1]
    have e1 : ((List.range (4 * n)).map fun k => ch.zMemory -
        ((sortedAccess (hasRcBuiltin pi) rows k).1 +
          ch.alphaMemory * (sortedAccess (hasRcBuiltin pi) rows k).2)).prod =
        D * (ch.zMemory - ((N : FE) + ch.alphaMemory * v)) := by
      have : ((List.range (4 * n)).map fun k => ch.zMemory -
        ((sortedAccess (hasRcBuiltin pi) rows k).1 +
          ch.alphaMemory * (sortedAccess (hasRcBuiltin pi) rows k).2)) =
          (List.range (4 * n)).map fun k : Nat => ch.zMemory -
            ((k : FE) + ch.alphaMemory * (if k = N then v else 0)) := by
        refine List.map_congr_left fun k hk => ?_
        rw [h4 k (List.mem_range.1 hk)]
      rw [this, hN, List.range_succ, List.map_append, List.prod_append]
      congr 1
      · rw [hD]
        refine congrArg List.prod (List.map_congr_left fun k hk => ?_)
        have := List.mem_range.1 hk
        rw [if_neg (by omega), mul_zero, add_zero]
      · simp
    have e2 : ((List.range (4 * n)).map fun k =>
        ch.zMemory - ((access rows k).1 + ch.alphaMemory * (access rows k).2)).prod = T := by
      rw [hT]
      refine congrArg List.prod (List.map_congr_left fun k hk => ?_)
      rw [h3 k (List.mem_range.1 hk)]
    rw [e1, e2, ← hv]
    ring

/-- The hypotheses of `C65_sorted_after_challenges` hold for the wrong claim that `simple_program` ends at
`pc = 77`. -/
example : ∃ (pi : PublicInputs) (ch : RAPChallenges FE) (acc : Nat → FE × FE) (ap : Nat → FE)
    (lo hi : UInt16), ¬ ClaimTrue pi ∧ pi.numSteps ≠ 0 ∧ pi.numSteps ≤ 8 ∧
    pi.rangeCheckMin = some lo ∧ pi.rangeCheckMax = some hi ∧ lo.toNat ≤ hi.toNat ∧
    hi.toNat < lo.toNat + 3 * 8 ∧
    (∀ e ∈ pi.publicMemory, ch.zMemory ≠ e.1 + ch.alphaMemory * e.2) ∧
    (∀ k < 4 * 8, ch.zMemory ≠ (acc k).1 + ch.alphaMemory * (acc k).2) ∧
    ch.alphaMemory ≠ 0 ∧ (∀ k : Nat, k < 4 * 8 → ch.zMemory ≠ (k : FE)) ∧
    (acc 0).1 = pi.pcInit ∧ (acc (4 * (pi.numSteps - 1))).1 = pi.pcFinal ∧
    ap 0 = pi.apInit ∧ ap (pi.numSteps - 1) = pi.apFinal := by
  refine ⟨{ Examples.main0.2 with pcFinal := 77 },
    ⟨2, 300, 5⟩, fun k => (if k = 0 then 1 else 77, 0),
    fun i => if i = 0 then 8 else 9, 32766, 32769,
    (C65_false_claim_accepted 77 (by decide +kernel)).1, by decide +kernel, by decide +kernel,
    by decide +kernel, by decide +kernel, by decide, by decide, ?_, ?_, by decide +kernel, ?_,
    by decide +kernel, by decide +kernel, by decide +kernel, by decide +kernel⟩
  · have h : (Examples.main0.2.publicMemory.all fun e => decide ((300 : FE) ≠ e.1 + 2 * e.2)) = true := by
      decide +kernel
    intro e he
    simpa using List.all_eq_true.1 h e he
  · intro k _
    have h1 : (300 : FE) ≠ 1 + 2 * 0 := by decide +kernel
    have h2 : (300 : FE) ≠ 77 + 2 * 0 := by decide +kernel
    show (300 : FE) ≠ (if k = 0 then 1 else 77) + 2 * 0
    split
    · exact h1
    · exact h2
  · have h : (List.range 32).all (fun k => decide ((300 : FE) ≠ (k : FE))) = true := by decide +kernel
    intro k hk
    simpa using List.all_eq_true.1 h k (List.mem_range.2 hk)

/-- Fixing the sorted memory before the challenges and anchoring the product would still not make address
zero read-only, because the dummy accesses `(0, 0)` that stand for the public memory may be anywhere in the
trace: there are accesses and a sorted memory that are accepted with an anchored product for every challenge
that avoids the poles, and that read both 0 and 5 at address zero. -/
theorem C65_address_zero_two_values : ∃ (pi : PublicInputs) (acc sorted : Nat → FE × FE) (j k : Nat),
    j < 4 ∧ k < 4 ∧ acc j = (0, 0) ∧ acc k = (0, 5) ∧
    ∀ (opts : ProofOptions) (ch : RAPChallenges FE),
      ch.zMemory ≠ 0 → ch.zMemory ≠ 0 + ch.alphaMemory * 5 → ch.zMemory ≠ 1 + ch.alphaMemory * 7 →
      ∃ rows, rows.length = 1 ∧ Accepted pi opts rows ch ∧ Anchored (hasRcBuiltin pi) rows ch ∧
        (∀ k < 4, access rows k = acc k) ∧
        ∀ k < 4, sortedAccess (hasRcBuiltin pi) rows k = sorted k := by
  refine ⟨⟨1, 8, 8, 1, 8, some 0, some 0, [], [(1, 7)], 1⟩,
    fun k => if k = 1 then (0, 0) else if k = 2 then (0, 5) else (1, 7),
    fun k => if k = 0 then (0, 5) else (1, 7), 1, 2, by decide, by decide, rfl, rfl, ?_⟩
  intro opts ch z0 z5 z7
  obtain ⟨rows, h1, h2, h3, h4, -⟩ := C29_product_not_anchored
    ⟨1, 8, 8, 1, 8, some 0, some 0, [], [(1, 7)], 1⟩ opts ch 1
    (fun k => if k = 1 then (0, 0) else if k = 2 then (0, 5) else (1, 7))
    (fun k => if k = 0 then (0, 5) else (1, 7)) (fun _ => 8) (fun _ => 8) 0 0 (by decide) (by decide)
    rfl rfl le_rfl (by decide)
    (by
      intro e he
      obtain rfl : e = (1, 7) := by simpa using he
      exact z7)
    (by
      intro k _
      by_cases hk : k = 1
      · simpa [hk] using z0
      by_cases hk2 : k = 2
      · simpa [hk, hk2] using z5
      · simpa [hk, hk2] using z7)
    (by
      intro k _
      by_cases hk : k = 0
      · right; simp [hk]
      · left; simp [hk])
    rfl rfl rfl rfl
  refine ⟨rows, h1, h2, ?_, h3, h4⟩
  refine anchored_of_product h2 ?_ ?_
  · intro k _ hk
    rw [h1] at hk
    rw [h3 k hk]
    by_cases hk1 : k = 1
    · simpa [hk1] using z0
    by_cases hk2 : k = 2
    · simpa [hk1, hk2] using z5
    · simpa [hk1, hk2] using z7
  · have n7 : ch.zMemory - (1 + ch.alphaMemory * 7) ≠ 0 := sub_ne_zero.2 z7
    rw [h1]
    simp only [show 4 * 1 = 4 from rfl, List.range_succ, List.range_zero, List.nil_append, List.cons_append,
      List.map_cons, List.map_nil, List.prod_cons, List.prod_nil]
    rw [h3 0 (by decide), h3 1 (by decide), h3 2 (by decide), h3 3 (by decide),
      h4 0 (by decide), h4 1 (by decide), h4 2 (by decide), h4 3 (by decide)]
    norm_num
    field_simp

end Verif.Props
