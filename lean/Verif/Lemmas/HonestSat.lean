import Verif.Lemmas.HonestMemory
import Verif.Props.CairoAir
import Verif.Props.AuxTrace
import Verif.Lemmas.CairoDeclared

/-! The trace of an honest run satisfies the Cairo AIR. -/

namespace Verif.ExecTrace
open CairoAir Spec

theorem boundaryConstraints_eq {pi : PublicInputs} {n : Nat} {ch : RAPChallenges FE} {lo hi : UInt16}
    (h1 : pi.numSteps ≠ 0) (h2 : n ≠ 0) (hlo : pi.rangeCheckMin = some lo)
    (hhi : pi.rangeCheckMax = some hi)
    (hne : (pi.publicMemory.foldl
      (fun product e => product * (ch.zMemory - (e.1 + ch.alphaMemory * e.2))) 1) ≠ 0) :
    ∃ cs, boundaryConstraints pi n ch = .ok cs := by
  unfold boundaryConstraints
  rw [if_neg (by push Not; exact ⟨h1, h2⟩)]
  simp only [inv, if_neg hne, hlo, hhi, Outcome.ofOptionUnwrap, Outcome.bind_ok]
  exact ⟨_, rfl⟩

theorem foldl_factor (ch : RAPChallenges FE) (l : List (FE × FE)) (a : FE) :
    l.foldl (fun product e => product * (ch.zMemory - (e.1 + ch.alphaMemory * e.2))) a =
      a * (l.map fun e => ch.zMemory - (e.1 + ch.alphaMemory * e.2)).prod := by
  induction l generalizing a with
  | nil => simp
  | cons e t ih => rw [List.foldl_cons, ih, List.map_cons, List.prod_cons, mul_assoc]

theorem fromRegsAndMem_regs {states : List RegistersState} {mem : CairoMemory} {size : Nat}
    {segs : MemorySegmentMap} {pi : PublicInputs}
    (h : fromRegsAndMem states mem size segs = .ok pi) :
    ∃ first last, states.head? = some first ∧ states.getLast? = some last ∧
      pi.pcInit = (first.pc : FE) ∧ pi.apInit = (first.ap : FE) ∧ pi.pcFinal = (last.pc : FE) ∧
      pi.apFinal = (last.ap : FE) ∧ pi.numSteps = states.length ∧ pi.memorySegments = segs := by
  unfold fromRegsAndMem at h
  simp only [Outcome.bind_eq_ok, Outcome.pure_eq, Outcome.ok.injEq] at h
  obtain ⟨prog, -, out, -, last, hl, first, hf, rfl⟩ := h
  refine ⟨first, last, ?_, ?_, rfl, rfl, rfl, rfl, rfl, rfl⟩
  · cases hh : states.head? <;> simp_all [Outcome.ofOptionUnwrap]
  · cases hh : states.getLast? <;> simp_all [Outcome.ofOptionUnwrap]

/-- The constraints on two consecutive entries of a contiguous, functional, sorted memory. -/
theorem memory_step (S all : List (FE × FE)) (hs : S.Pairwise (fun x y => x.1.val ≤ y.1.val))
    (hp : S.Perm all) (hf : ∃ f : FE → FE, ∀ p ∈ all, p.2 = f p.1)
    (hgap : ∀ x : Nat, (∃ p ∈ all, p.1.val < x) → (∃ p ∈ all, x < p.1.val) →
      ∃ p ∈ all, p.1.val = x) (k : Nat) (hk : k + 1 < S.length) :
    ((S.getD k (0, 0)).1 - (S.getD (k + 1) (0, 0)).1) *
      ((S.getD (k + 1) (0, 0)).1 - (S.getD k (0, 0)).1 - 1) = 0 ∧
    ((S.getD k (0, 0)).2 - (S.getD (k + 1) (0, 0)).2) *
      ((S.getD (k + 1) (0, 0)).1 - (S.getD k (0, 0)).1 - 1) = 0 := by
  obtain ⟨f, hf⟩ := hf
  obtain ⟨h1, h2⟩ := consecutive_keys (fun p : FE × FE => p.1.val) S (0, 0) hs
    (by simpa only [hp.mem_iff] using hgap) k hk
  have hm : S.getD k (0, 0) ∈ all := by
    rw [List.getD_eq_getElem _ _ (by omega)]; exact hp.mem_iff.1 (List.getElem_mem _)
  have hm' : S.getD (k + 1) (0, 0) ∈ all := by
    rw [List.getD_eq_getElem _ _ hk]; exact hp.mem_iff.1 (List.getElem_mem _)
  rw [hf _ hm, hf _ hm']
  rcases fe_step h1 h2 with h | h
  · rw [h]; simp
  · rw [h]; simp

/-- The constraints on two consecutive entries of the sorted offsets. -/
theorem offset_step (S : List FE) (hs : S.Pairwise (fun x y => x.val ≤ y.val)) {lo hi : Nat}
    (hset : ∀ x : FE, x ∈ S ↔ lo ≤ x.val ∧ x.val ≤ hi) (hhi : hi < 2 ^ 16) (k : Nat)
    (hk : k + 1 < S.length) :
    (S.getD k 0 - S.getD (k + 1) 0) * (S.getD (k + 1) 0 - S.getD k 0 - 1) = 0 := by
  obtain ⟨h1, h2⟩ := consecutive_keys (fun p : FE => p.val) S 0 hs (by
    rintro x ⟨a, ha, hax⟩ ⟨b, hb, hxb⟩
    have hxv : ((x : FE)).val = x :=
      ZMod.val_natCast_of_lt (lt_trans hxb (ZMod.val_lt b))
    refine ⟨(x : FE), (hset _).2 ?_, hxv⟩
    rw [hxv]
    exact ⟨le_trans ((hset a).1 ha).1 hax.le, le_trans hxb.le ((hset b).1 hb).2⟩) k hk
  rcases fe_step h1 h2 with h | h <;> rw [h] <;> simp

theorem offset_ends (S : List FE) (hs : S.Pairwise (fun x y => x.val ≤ y.val)) {lo hi : Nat}
    (hset : ∀ x : FE, x ∈ S ↔ lo ≤ x.val ∧ x.val ≤ hi) (hlh : lo ≤ hi) (hhi : hi < 2 ^ 16)
    (hne : 0 < S.length) : S.getD 0 0 = (lo : FE) ∧ S.getD (S.length - 1) 0 = (hi : FE) := by
  have hP : 2 ^ 16 < P := lt_trans (by norm_num) P_gt
  have hpw : ∀ i j (hi : i < S.length) (hj : j < S.length), i ≤ j → S[i].val ≤ S[j].val := by
    intro i j hi hj hij
    rcases Nat.lt_or_eq_of_le hij with h | h
    · exact List.pairwise_iff_getElem.1 hs i j hi hj h
    · subst h; exact le_rfl
  have hvlo : ((lo : FE)).val = lo := ZMod.val_natCast_of_lt (by omega)
  have hvhi : ((hi : FE)).val = hi := ZMod.val_natCast_of_lt (by omega)
  rw [List.getD_eq_getElem _ _ hne, List.getD_eq_getElem _ _ (by omega)]
  constructor
  · obtain ⟨j, hj, hjl⟩ := List.mem_iff_getElem.1 ((hset (lo : FE)).2 ⟨by omega, by omega⟩)
    have h1 := hpw 0 j hne hj (by omega)
    have h2 := ((hset S[0]).1 (List.getElem_mem _)).1
    rw [hjl, hvlo] at h1
    apply ZMod.val_injective P; omega
  · obtain ⟨j, hj, hjl⟩ := List.mem_iff_getElem.1 ((hset (hi : FE)).2 ⟨by omega, by omega⟩)
    have h1 := hpw j (S.length - 1) hj (by omega) (by omega)
    have h2 := ((hset S[S.length - 1]).1 (List.getElem_mem _)).2
    rw [hjl, hvhi] at h1
    apply ZMod.val_injective P; omega

theorem cell_full {rows aux : List (List FE)} (hl : aux.length = rows.length) {i : Nat}
    (hi : i < rows.length) : cell (List.zipWith (· ++ ·) rows aux) i = fullRow rows aux i := by
  funext c
  unfold cell fullRow
  rw [List.getD_eq_getElem (List.zipWith _ rows aux) _ (by simp; omega), List.getElem_zipWith,
    List.getD_eq_getElem rows _ hi, List.getD_eq_getElem aux _ (by omega)]

theorem exemptions_one (b : Bool) :
    (transitionExemptions b)[34]? = some 1 ∧ (transitionExemptions b)[38]? = some 1 ∧
    (transitionExemptions b)[42]? = some 1 ∧ (transitionExemptions b)[45]? = some 1 := by
  cases b <;> decide

macro "col_bound" : tactic => `(tactic| (
  simp only [MEM_A_TRACE_OFFSET, MEM_P_TRACE_OFFSET, PERMUTATION_ARGUMENT_COL_0,
    PERMUTATION_ARGUMENT_RANGE_CHECK_COL_1, RANGE_CHECK_COL_1, RANGE_CHECK_COL_3]
  omega))

theorem getD_of_getElem? {α : Type} {l : List α} {i : Nat} {a d : α} (h : l[i]? = some a) :
    l.getD i d = a := by
  rw [List.getD_eq_getElem?_getD, h]; rfl

section
variable {mem : CairoMemory} {m : FE → FE} {states : List RegistersState}
variable {pi pi' : PublicInputs} {rows exec : List (List FE)} {rcHoles holes last1 last2 : List FE}
  {lo hi k size : Nat} {segs : MemorySegmentMap}

/-- The execution constraints. -/
theorem main_exec (run : HonestRun mem m states) (hb : BuiltinValues mem pi.memorySegments)
    (M : MainSpec states mem pi rows pi' exec rcHoles lo hi holes last1 last2 k)
    (hasRc : Bool) (ch : RAPChallenges FE) (aux : List (List FE)) (i : Nat) (hi : i < rows.length)
    (j : Nat) (hj : j < 31) :
    (computeTransition hasRc ch (fullRow rows aux i)
      (fullRow rows aux ((i + 1) % rows.length)))[j]? = some 0 := by
  have hge := mainWidth_ge pi
  obtain ⟨hok, hsel, -, -, -⟩ := main_rows run hb M
  obtain ⟨-, -, -, hw⟩ := M.width
  have hlenE := (exec_width M.exec_eq).1
  have hpre : ∀ i < states.length, rows[i]? = exec[i]? ∧ i < rows.length := by
    intro i h
    have hlen : rows.length = _ := congrArg List.length M.rows_eq
    simp only [List.length_append] at hlen
    refine ⟨?_, by omega⟩
    rw [M.rows_eq, List.append_assoc, List.append_assoc, List.getElem?_append_left (by omega)]
  by_cases h : i + 1 < states.length
  · obtain ⟨ext, he, -⟩ := exec_rows run M.exec_eq
    obtain ⟨res, hc, hr⟩ := he i (by omega)
    obtain ⟨res', hc', hr'⟩ := he (i + 1) h
    rw [← (hpre i (by omega)).1] at hr
    rw [← (hpre (i + 1) h).1] at hr'
    rw [Nat.mod_eq_of_lt (hpre (i + 1) h).2]
    have e : ∀ (i : Nat) (a b : List FE), rows[i]? = some (a ++ b) →
        fullRow rows aux i = Props.rowFn (a ++ (b ++ aux.getD i [])) := by
      intro i a b hr
      funext c
      unfold fullRow Props.rowFn
      rw [getD_of_getElem? hr, List.append_assoc]
    rw [e _ _ _ hr, e _ _ _ hr']
    exact Props.C16_honest_step hasRc ch run.holds hc hc' (run.addr _ (List.getElem_mem _))
      (run.steps i _ _ (List.getElem?_eq_getElem _) (List.getElem?_eq_getElem _)) j hj
  · revert j
    have hrow : ∀ c < 34, fullRow rows aux i c = (rows.getD i []).getD c 0 :=
      fun c hc => fullRow_main hw hi (by omega)
    have hr : RowOk (rows.getD i []) := by
      rw [List.getD_eq_getElem _ _ hi]; exact hok _ (List.getElem_mem _)
    rw [execZero_iff]
    refine ⟨?_, ?_, ?_⟩
    · intro j hj
      rw [hrow j (by omega)]
      rcases hr.flags j hj with h | h <;> rw [h] <;> simp
    · rw [hrow 15 (by omega)]; exact hr.c15
    · intro c _
      rw [hrow 33 (by omega), hsel i (by omega) hi, mul_zero]

/-- The trace of an honest run satisfies the AIR, if its memory is contiguous and gives one value to each address. -/
theorem honest_satisfies_of (run : HonestRun mem m states)
    (M : MainSpec states mem pi rows pi' exec rcHoles lo hi holes last1 last2 k)
    (hpi : fromRegsAndMem states mem size segs = .ok pi) (hsize : size < 2 ^ 64)
    (hb : BuiltinValues mem segs)
    (hout : OutputAfterProgram size segs)
    (hdrop : (accesses rows).drop (4 * rows.length - pi.publicMemory.length)
      = List.replicate pi.publicMemory.length (0, 0))
    (hall : ∀ all, all = (accesses rows).take (4 * rows.length - pi.publicMemory.length) ++ pi.publicMemory →
      (∃ f : FE → FE, ∀ p ∈ all, p.2 = f p.1) ∧
      ∀ x : Nat, (∃ p ∈ all, p.1.val < x) → (∃ p ∈ all, x < p.1.val) → ∃ p ∈ all, p.1.val = x)
    (hw : mainWidth pi = 43 - builtinOffset (hasRcBuiltin pi'))
    (opts : ProofOptions) {ch : RAPChallenges FE} {aux : List (List FE)}
    (haux : buildAuxiliaryTrace pi' rows ch = .ok aux) :
    (∀ r ∈ List.zipWith (· ++ ·) rows aux, r.length = traceColumns (hasRcBuiltin pi')) ∧
    Satisfies (CairoAir.air (List.zipWith (· ++ ·) rows aux).length pi' opts)
      (List.zipWith (· ++ ·) rows aux) (traceColumns (hasRcBuiltin pi')) ch := by
  obtain ⟨first, last, hfirst, hlast, hr1, hr2, hr3, hr4, hr5, hsegs⟩ := fromRegsAndMem_regs hpi
  rw [← hsegs] at hb
  obtain ⟨hok, hsel, hset, h16, hlohi⟩ := main_rows run hb M
  have hexecC := main_exec run hb M (hasRcBuiltin pi') ch aux
  obtain ⟨-, -, -, hwid⟩ := M.width
  rw [hw] at hwid
  have hpipm : pi'.publicMemory = pi.publicMemory := by rw [M.pi_eq]
  have hpims : pi'.memorySegments = pi.memorySegments := by rw [M.pi_eq]
  obtain ⟨hauxlen, hpairs, -, -⟩ := Props.C22_sorted_columns hpi hsize hout hpipm hpims haux
  obtain ⟨addrs, vals, pcol, rcol, sorted, A⟩ := buildAuxiliaryTrace_ok haux
  have hpairs := hpairs sorted (aux_pairs A).symm
  obtain ⟨hP1, hP2, hP3⟩ := Props.C23_memory_permutation (hasRcBuiltin pi') hwid haux
  have hoff16 : ∀ x ∈ getCols rows [OFF_DST, OFF_OP0, OFF_OP1], x.val < 2 ^ 16 :=
    fun x hx => lt_of_le_of_lt ((hset x).1 hx).2 h16
  obtain ⟨hR1, hR2⟩ := Props.C23_range_check_permutation (hasRcBuiltin pi') hwid haux hoff16
  obtain ⟨hf, hgap⟩ := hall _ rfl
  have hN : states.length ≠ 0 := fun h => run.nonempty (List.length_eq_zero_iff.1 h)
  have hlenE := (exec_width M.exec_eq).1
  have hpre : ∀ i < states.length, rows[i]? = exec[i]? ∧ i < rows.length := by
    intro i h
    have hlen : rows.length = _ := congrArg List.length M.rows_eq
    simp only [List.length_append] at hlen
    refine ⟨?_, by omega⟩
    rw [M.rows_eq, List.append_assoc, List.append_assoc, List.getElem?_append_left (by omega)]
  have hn : 0 < rows.length := (Nat.zero_le _).trans_lt (hpre 0 (by omega)).2
  have hfull : (List.zipWith (· ++ ·) rows aux).length = rows.length := by simp; omega
  have hcols : 43 - builtinOffset (hasRcBuiltin pi') + 18 = traceColumns (hasRcBuiltin pi') := by
    cases hasRcBuiltin pi' <;> decide
  have hrect : ∀ r ∈ List.zipWith (· ++ ·) rows aux,
      r.length = traceColumns (hasRcBuiltin pi') := by
    intro r hr
    obtain ⟨i, h, rfl⟩ := List.mem_iff_getElem.1 hr
    rw [List.getElem_zipWith, List.length_append, hwid _ (List.getElem_mem _),
      A.width _ (List.getElem_mem _), hcols]
  refine ⟨hrect, ?_⟩
  rw [satisfies_iff _ _ _ _ hrect, hfull]
  have hperm := sortedOffsets_perm hoff16
  have hsettrue : ∀ x : FE, x ∈ sortedOffsets rows ↔ lo ≤ x.val ∧ x.val ≤ hi := by
    intro x; rw [hperm.mem_iff]; exact hset x
  have hmstep := memory_step sorted _ hpairs.1 hpairs.2 hf hgap
  rw [A.sorted_len] at hmstep
  have hostep := offset_step _ (sortedOffsets_pairwise rows) hsettrue h16
  rw [length_sortedOffsets] at hostep
  constructor
  · -- boundary
    have hprodne : (pi'.publicMemory.foldl
        (fun product e => product * (ch.zMemory - (e.1 + ch.alphaMemory * e.2))) 1) ≠ 0 := by
      rw [foldl_factor, one_mul]
      intro h
      obtain ⟨e, he, h⟩ := List.mem_map.1 (List.prod_eq_zero_iff.1 h)
      apply A.mem_ne
      refine List.mem_map.2 ⟨e, hpairs.2.mem_iff.2 (List.mem_append_right _ (hpipm ▸ he)), h⟩
    have hns : pi'.numSteps = states.length := by rw [M.pi_eq]; exact hr5
    have hlo' : pi'.rangeCheckMin = some (UInt16.ofNat lo) := by rw [M.pi_eq]
    have hhi' : pi'.rangeCheckMax = some (UInt16.ofNat hi) := by rw [M.pi_eq]
    obtain ⟨cs, hcs⟩ := boundaryConstraints_eq (n := rows.length) (by rw [hns]; exact hN) (by omega)
      hlo' hhi' hprodne
    refine ⟨cs, hcs, ?_⟩
    obtain ⟨-, -, lo', hi', hlo'', hhi'', -, rfl⟩ := boundaryConstraints_ok hcs
    obtain rfl : UInt16.ofNat lo = lo' := by
      rw [hlo'] at hlo''; exact Option.some.inj hlo''
    obtain rfl : UInt16.ofNat hi = hi' := by
      rw [hhi'] at hhi''; exact Option.some.inj hhi''
    have hlon : (UInt16.ofNat lo).toNat = lo := by
      rw [UInt16.toNat_ofNat']; exact Nat.mod_eq_of_lt (by omega)
    have hhin : (UInt16.ofNat hi).toNat = hi := by
      rw [UInt16.toNat_ofNat']; exact Nat.mod_eq_of_lt (by omega)
    have hcell : ∀ (i c : Nat) (v : FE), i < rows.length → c < traceColumns (hasRcBuiltin pi') →
        fullRow rows aux i c = v →
        ∃ row, (List.zipWith (· ++ ·) rows aux)[i]? = some row ∧ row[c]? = some v := by
      intro i c v h1 h2 h3
      have hi : i < (List.zipWith (· ++ ·) rows aux).length := by omega
      refine ⟨_, List.getElem?_eq_getElem hi, ?_⟩
      have hl := hrect _ (List.getElem_mem hi)
      have := congrFun (cell_full hauxlen h1) c
      rw [h3] at this
      unfold cell at this
      rw [List.getD_eq_getElem _ _ hi, List.getD_eq_getElem _ _ (by rw [hl]; exact h2)] at this
      rw [List.getElem?_eq_getElem (by rw [hl]; exact h2), this]
    have hreg : ∀ (i : Nat) (t : RegistersState), states[i]? = some t →
        fullRow rows aux i 19 = (t.pc : FE) ∧ fullRow rows aux i 17 = (t.ap : FE) := by
      intro i t ht
      obtain ⟨hi, rfl⟩ := List.getElem?_eq_some_iff.1 ht
      obtain ⟨ext, he, -⟩ := exec_rows run M.exec_eq
      obtain ⟨res, -, hr⟩ := he i hi
      rw [← (hpre i hi).1] at hr
      have hge := mainWidth_ge pi
      have e : ∀ c < 33, fullRow rows aux i c = (specCells m (regsOf states[i]) res).getD c 0 := by
        intro c hc
        rw [fullRow_main hwid (hpre i hi).2 (by omega), getD_of_getElem? hr,
          getD_specCells _ _ _ _ hc]
      rw [e 19 (by omega), e 17 (by omega)]
      exact ⟨rfl, rfl⟩
    obtain ⟨f1, f2⟩ := hreg 0 first (by rw [← List.head?_eq_getElem?]; exact hfirst)
    obtain ⟨l1, l2⟩ := hreg (states.length - 1) last
      (by rw [← List.getLast?_eq_getElem?]; exact hlast)
    have hoffs : builtinOffset (hasRcBuiltin pi') ≤ 9 := by
      cases hasRcBuiltin pi' <;> decide
    have hbo : builtinOffset (hasRcBuiltin pi') = 0 ∧ traceColumns (hasRcBuiltin pi') = 61 ∨
        builtinOffset (hasRcBuiltin pi') = 9 ∧ traceColumns (hasRcBuiltin pi') = 52 := by
      cases hasRcBuiltin pi' <;> decide
    obtain ⟨o0, -, -, -, -⟩ := A.cells hwid hn
    obtain ⟨oN, -, -, -, -⟩ := A.cells hwid (i := rows.length - 1) (by omega)
    obtain ⟨e1, e2⟩ := offset_ends _ (sortedOffsets_pairwise rows) hsettrue hlohi h16
      (by rw [length_sortedOffsets]; omega)
    rw [length_sortedOffsets] at e2
    have hlt := (hpre (states.length - 1) (by omega)).2
    have hpi1 : pi'.pcInit = pi.pcInit ∧ pi'.apInit = pi.apInit ∧ pi'.pcFinal = pi.pcFinal ∧
        pi'.apFinal = pi.apFinal := by rw [M.pi_eq]; exact ⟨rfl, rfl, rfl, rfl⟩
    obtain ⟨p1, p2, p3, p4⟩ := hpi1
    intro c hc
    simp only [List.mem_cons, List.not_mem_nil, or_false] at hc
    rcases hc with rfl | rfl | rfl | rfl | rfl | rfl | rfl | rfl
    · exact hcell _ _ _ hn (by col_bound) (by rw [p1, hr1]; exact f1)
    · exact hcell _ _ _ hn (by col_bound) (by rw [p2, hr2]; exact f2)
    · refine hcell _ _ _ (by rw [hns]; exact hlt) (by col_bound) ?_
      rw [p3, hr3, hns]; exact l1
    · refine hcell _ _ _ (by rw [hns]; exact hlt) (by col_bound) ?_
      rw [p4, hr4, hns]; exact l2
    · refine hcell _ _ _ (Nat.sub_lt hn one_pos) (by col_bound) ?_
      rw [hP3 pi.publicMemory ⟨sorted, (aux_pairs A).symm, hpairs.2⟩ hdrop hn, foldl_factor, one_mul,
        hpipm]
    · exact hcell _ _ _ (Nat.sub_lt hn one_pos) (by col_bound) (hR2 hn)
    · refine hcell _ _ _ hn (by col_bound) ?_
      rw [hlon]
      exact (o0 0 (by decide)).trans e1
    · refine hcell _ _ _ (Nat.sub_lt hn one_pos) (by col_bound) ?_
      rw [hhin]
      refine (oN 2 (by decide)).trans ?_
      rw [show 3 * (rows.length - 1) + 2 = 3 * rows.length - 1 by omega]
      exact e2
  · -- transitions
    intro i hi k x hx hlt
    have hi' : (i + 1) % rows.length < rows.length := Nat.mod_lt _ hn
    rw [cell_full hauxlen hi, cell_full hauxlen hi']
    obtain ⟨x34, x38, x42, x45⟩ := exemptions_one (hasRcBuiltin pi')
    have hx1 : k = 34 ∨ k = 38 ∨ k = 42 ∨ k = 45 → i + 1 < rows.length := by
      rintro (rfl | rfl | rfl | rfl)
      · rw [x34] at hx; cases hx; exact hlt
      · rw [x38] at hx; cases hx; exact hlt
      · rw [x42] at hx; cases hx; exact hlt
      · rw [x45] at hx; cases hx; exact hlt
    have hk := (List.getElem?_eq_some_iff.1 hx).1
    obtain ⟨hO, hA, hV, -, -⟩ := A.cells hwid hi
    by_cases h31 : k < 31
    · exact hexecC i hi k h31
    by_cases h39 : k < 39
    · obtain ⟨j, rfl⟩ : ∃ j, k = 31 + j := ⟨k - 31, by omega⟩
      rw [transition_memory _ _ _ _ _ (by omega)]
      obtain ⟨-, hA', hV', -, -⟩ := A.cells hwid hi'
      have a0 := hA 0 (by decide)
      have v0 := hV 0 (by decide)
      have a0' := hA' 0 (by decide)
      have v0' := hV' 0 (by decide)
      rw [Nat.add_zero, Nat.add_zero] at a0 v0 a0' v0'
      simp only [memoryIsIncreasing, Nat.add_zero, a0, v0, a0', v0', hA 1 (by decide),
        hA 2 (by decide), hA 3 (by decide), hV 1 (by decide), hV 2 (by decide), hV 3 (by decide)]
      have s0 := hmstep (4 * i) (by omega)
      have s1 := hmstep (4 * i + 1) (by omega)
      have s2 := hmstep (4 * i + 2) (by omega)
      have s3 : i + 1 < rows.length → _ := fun h => hmstep (4 * i + 3) (by omega)
      rw [show 4 * i + 3 + 1 = 4 * (i + 1) by ring] at s3
      have hmod : i + 1 < rows.length → (i + 1) % rows.length = i + 1 := Nat.mod_eq_of_lt
      have hj8 : j < 8 := by omega
      interval_cases j
      · exact congrArg some s0.1
      · exact congrArg some s1.1
      · exact congrArg some s2.1
      · have := hx1 (by omega); rw [hmod this]; exact congrArg some (s3 this).1
      · exact congrArg some s0.2
      · exact congrArg some s1.2
      · exact congrArg some s2.2
      · have := hx1 (by omega); rw [hmod this]; exact congrArg some (s3 this).2
    by_cases h43 : k < 43
    · by_cases h42 : k = 42
      · have h := hx1 (by omega)
        rw [Nat.mod_eq_of_lt h]
        exact hP1 i h k (by omega) h43
      · exact hP2 i hi _ k (by omega) (by omega)
    by_cases h46 : k < 46
    · obtain ⟨j, rfl⟩ : ∃ j, k = 43 + j := ⟨k - 43, by omega⟩
      rw [transition_rangeCheck _ _ _ _ _ (by omega)]
      obtain ⟨hO', -, -, -, -⟩ := A.cells hwid hi'
      have o0 := hO 0 (by decide)
      have o0' := hO' 0 (by decide)
      rw [Nat.add_zero, Nat.add_zero] at o0 o0'
      have hc2 : fullRow rows aux i (RANGE_CHECK_COL_2 - builtinOffset (hasRcBuiltin pi'))
        = (sortedOffsets rows).getD (3 * i + 1) 0 := hO 1 (by decide)
      have hc3 : fullRow rows aux i (RANGE_CHECK_COL_3 - builtinOffset (hasRcBuiltin pi'))
        = (sortedOffsets rows).getD (3 * i + 2) 0 := hO 2 (by decide)
      simp only [permutationArgumentRangeCheck, o0, o0', hc2, hc3]
      have hj3 : j < 3 := by omega
      have s0 := hostep (3 * i) (by omega)
      have s1 := hostep (3 * i + 1) (by omega)
      interval_cases j
      · exact congrArg some s0
      · exact congrArg some s1
      · have h := hx1 (by omega)
        rw [Nat.mod_eq_of_lt h]
        have s2 := hostep (3 * i + 2) (by omega)
        exact congrArg some s2
    by_cases h49 : k < 49
    · exact hR1 i hi k (by omega) h49
    · have hrc : hasRcBuiltin pi' = true ∧ k = 49 := by
        cases hb : hasRcBuiltin pi' with
        | false => rw [hb] at hk; simp [transitionExemptions] at hk; omega
        | true => rw [hb] at hk; simp [transitionExemptions] at hk; exact ⟨rfl, by omega⟩
      obtain ⟨hrc, rfl⟩ := hrc
      rw [hrc, transition_builtin]
      rw [hrc] at hwid
      have hr : RowOk (rows.getD i []) := by
        rw [List.getD_eq_getElem _ _ hi]; exact hok _ (List.getElem_mem _)
      have hbo : builtinOffset true = 0 := rfl
      have e : ∀ c < 43, fullRow rows aux i c = (rows.getD i []).getD c 0 := fun c hc =>
        fullRow_main hwid hi (by omega)
      have h := hr.builtin
      unfold rangeCheckBuiltin at h ⊢
      simp only [RC_0, RC_VALUE] at h ⊢
      rw [e _ (by omega), e _ (by omega), e _ (by omega), e _ (by omega), e _ (by omega),
        e _ (by omega), e _ (by omega), e _ (by omega), e _ (by omega), h]

/-- The trace of an honest run satisfies the AIR. -/
theorem honest_satisfies (run : HonestRun mem m states)
    (M : MainSpec states mem pi rows pi' exec rcHoles lo hi holes last1 last2 k)
    (hpi : fromRegsAndMem states mem size segs = .ok pi) (hsize : size < 2 ^ 64)
    (hb : BuiltinValues mem segs)
    (hout : OutputAfterProgram size segs) (hzero : mem.get? 0 = none)
    (hpc : ∃ t ∈ states, t.pc ≤ size) (hcov : OutputCovered m states size segs)
    (hw : mainWidth pi = 43 - builtinOffset (hasRcBuiltin pi'))
    (opts : ProofOptions) {ch : RAPChallenges FE} {aux : List (List FE)}
    (haux : buildAuxiliaryTrace pi' rows ch = .ok aux) :
    (∀ r ∈ List.zipWith (· ++ ·) rows aux, r.length = traceColumns (hasRcBuiltin pi')) ∧
    Satisfies (CairoAir.air (List.zipWith (· ++ ·) rows aux).length pi' opts)
      (List.zipWith (· ++ ·) rows aux) (traceColumns (hasRcBuiltin pi')) ch := by
  have hsegs := (fromRegsAndMem_regs hpi).choose_spec.choose_spec.2.2.2.2.2.2.2
  obtain ⟨hdrop, hall⟩ := main_memory run M hpi hsize hout hzero hpc hcov
  exact honest_satisfies_of run M hpi hsize hb hout hdrop hall hw opts haux

end
end Verif.ExecTrace
