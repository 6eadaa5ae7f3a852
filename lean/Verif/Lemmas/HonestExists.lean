import Verif.Lemmas.HonestSat

/-! The prover builds a trace for every honest run. -/

namespace Verif.ExecTrace
open CairoAir Spec

section
variable {mem : CairoMemory} {m : FE → FE} {states : List RegistersState}

theorem mapOutcome_exists {ε α β : Type} {f : α → Outcome ε β} {l : List α}
    (h : ∀ a ∈ l, ∃ b, f a = .ok b) : ∃ bs, mapOutcome f l = .ok bs := by
  induction l with
  | nil => exact ⟨[], rfl⟩
  | cons a t ih =>
    obtain ⟨b, hb⟩ := h a (by simp)
    obtain ⟨bs, hbs⟩ := ih fun a ha => h a (by simp [ha])
    exact ⟨b :: bs, by simp [mapOutcome, hb, hbs]⟩

theorem exec_exists (run : HonestRun mem m states) {pi : PublicInputs}
    (hb : BuiltinValues mem pi.memorySegments) :
    ∃ exec, buildCairoExecutionTrace states mem pi = .ok exec := by
  obtain ⟨cells, hc⟩ := mapOutcome_exists (f := stepCells mem) (l := states) fun t ht => by
    obtain ⟨res, h⟩ := run.cells ht; exact ⟨_, h⟩
  unfold buildCairoExecutionTrace
  have hN : states.length ≠ 0 := fun h => run.nonempty (List.length_eq_zero_iff.1 h)
  simp only [hc, Outcome.bind_ok, hN, if_false]
  cases hr : pi.memorySegments.get? .rangeCheck with
  | none => exact ⟨_, rfl⟩
  | some range =>
    obtain ⟨s, e⟩ := range
    obtain ⟨values, hv⟩ := mapOutcome_exists (f := memGet mem)
      (l := List.range' s (e - s)) fun n hn => by
        rw [List.mem_range'_1] at hn
        obtain ⟨v, hv, -⟩ := hb s e hr n hn.1 (by omega)
        exact ⟨v, by rw [memGet_eq_ok]; exact hv⟩
    have : rcValues (s, e) mem = .ok values := hv
    simp only [this, Outcome.bind_ok]
    exact ⟨_, rfl⟩

theorem lastRow_exists {l : List (List FE)} (h : l ≠ []) : ∃ r, lastRow l = .ok r := by
  unfold lastRow Outcome.ofOptionUnwrap
  cases hl : l.getLast? with
  | none => exact absurd (List.getLast?_eq_none_iff.1 hl) h
  | some r => exact ⟨r, rfl⟩

theorem main_exists (run : HonestRun mem m states) {pi : PublicInputs}
    (hb : BuiltinValues mem pi.memorySegments) :
    ∃ rows pi', buildMainTrace states mem pi = .ok (rows, pi') := by
  obtain ⟨exec, hexec⟩ := exec_exists run hb
  obtain ⟨hoff1, hoff2⟩ := offsets16 run hexec
  obtain ⟨rcHoles, lo, hi, hrc, -⟩ := Props.C17_rc_holes _ hoff1 hoff2
  have hne := (exec_width hexec).2.1
  unfold buildMainTrace
  simp only [hexec, Outcome.bind_ok, hrc]
  have hholes : ∃ holes, getMemoryHoles ((getCols exec ADDR_COLUMNS).insertionSort
      fun a b => a.val ≤ b.val) pi.publicMemory.length = .ok holes := by
    unfold getMemoryHoles
    cases hs : (getCols exec ADDR_COLUMNS).insertionSort fun a b => a.val ≤ b.val with
    | nil =>
      exfalso
      have h1 := (List.perm_insertionSort (fun a b : FE => a.val ≤ b.val)
        (getCols exec ADDR_COLUMNS)).length_eq
      rw [hs, length_getCols] at h1
      simp [ADDR_COLUMNS] at h1
      exact hne h1
    | cons a t => exact ⟨_, rfl⟩
  obtain ⟨holes, hholes⟩ := hholes
  simp only [hholes, Outcome.bind_ok]
  obtain ⟨l1, hl1⟩ := lastRow_exists (l := exec ++ rcHoleRows (exec.head?.elim 0 List.length) rcHoles)
    (by simp [hne])
  simp only [hl1, Outcome.bind_ok]
  obtain ⟨l2, hl2⟩ := lastRow_exists (l := exec ++
    rcHoleRows (exec.head?.elim 0 List.length) rcHoles ++ memoryHoleRows l1 holes) (by simp [hne])
  simp only [hl2, Outcome.bind_ok]
  obtain ⟨l3, hl3⟩ := lastRow_exists (l := exec ++
    rcHoleRows (exec.head?.elim 0 List.length) rcHoles ++ memoryHoleRows l1 holes ++
    List.replicate (pi.publicMemory.length >>> 2 + 1) (zeroedRow l2 MEMORY_COLUMNS)) (by simp [hne])
  simp only [hl3, Outcome.bind_ok]
  exact ⟨_, _, rfl⟩

/-- The auxiliary trace exists unless a denominator is zero. -/
theorem aux_exists {size : Nat} {segs : MemorySegmentMap} {pi pi' : PublicInputs}
    (h : fromRegsAndMem states mem size segs = .ok pi) (hsize : size < 2 ^ 64)
    (hout : OutputAfterProgram size segs)
    (hpm : pi'.publicMemory = pi.publicMemory) (hps : pi'.memorySegments = pi.memorySegments)
    {rows : List (List FE)} (hlen : pi.publicMemory.length ≤ 4 * rows.length)
    (h16 : ∀ x ∈ getCols rows [OFF_DST, OFF_OP0, OFF_OP1], x.val < 2 ^ 16)
    (ch : RAPChallenges FE)
    (hmem : ∀ e ∈ accesses rows ++ pi.publicMemory, ch.zMemory ≠ e.1 + ch.alphaMemory * e.2)
    (hrc : ∀ x ∈ getCols rows [OFF_DST, OFF_OP0, OFF_OP1], ch.zRangeCheck ≠ x) :
    ∃ aux, buildAuxiliaryTrace pi' rows ch = .ok aux := by
  have hlen4 : (getCols rows ADDR_COLUMNS).length = 4 * rows.length := by
    rw [length_getCols]; rfl
  have hlen4' : (getCols rows VALUE_COLUMNS).length = 4 * rows.length := by
    rw [length_getCols]; rfl
  obtain ⟨⟨a', v', h', pub, hperm, hzip⟩, -⟩ := Props.C19_public_memory_placed h hsize hout _ _
    (hlen4.trans hlen4'.symm) (by omega)
  have hadd : addPubMemory (getCols rows ADDR_COLUMNS) (getCols rows VALUE_COLUMNS) pi'
      = .ok (a', v') := by
    rw [← h']; unfold addPubMemory; rw [hpm, hps]
  have h1 : (0 : FE) ∉ (sortByAddress (a'.zip v')).map
      (fun e => ch.zMemory - (e.1 + ch.alphaMemory * e.2)) := by
    intro h0
    obtain ⟨e, he, h0⟩ := List.mem_map.1 h0
    rw [(sortByAddress_perm _).mem_iff, hzip] at he
    refine hmem e ?_ (sub_eq_zero.1 h0)
    rcases List.mem_append.1 he with he | he
    · exact List.mem_append_left _ (List.mem_of_mem_take he)
    · exact List.mem_append_right _ (hperm.mem_iff.1 he)
  have h2 : (0 : FE) ∉ (sortedOffsets rows).map (fun x => ch.zRangeCheck - x) := by
    intro h0
    obtain ⟨x, hx, h0⟩ := List.mem_map.1 h0
    exact hrc x ((sortedOffsets_perm h16).mem_iff.1 hx) (sub_eq_zero.1 h0)
  unfold sortedOffsets at h2
  unfold buildAuxiliaryTrace
  simp only [hadd, Outcome.bind_ok, memoryPermutationColumn, rangeCheckPermutationColumn,
    batchInverse, h1, h2, if_false]
  exact ⟨_, rfl⟩

end
end Verif.ExecTrace
