import Verif.Lemmas.Honest

/-! The trace of an honest run: its memory accesses. -/

namespace Verif.ExecTrace
open CairoAir Spec

theorem holesBetween_nodup {codelen : Nat} {p a : FE} (hp : p.val + 1 ≤ a.val) :
    (holesBetween codelen (p + 1) a).Nodup := by
  unfold holesBetween
  apply List.Nodup.filter
  rw [List.nodup_map_iff_inj_on List.nodup_range]
  intro x hx y hy hxy
  have hP : a.val < P := ZMod.val_lt a
  rw [List.mem_range] at hx hy
  have := congrArg ZMod.val (add_left_cancel hxy)
  rwa [ZMod.val_natCast_of_lt (by omega), ZMod.val_natCast_of_lt (by omega)] at this

theorem memoryHolesFrom_nodup {codelen : Nat} (l : List FE) :
    ∀ (p : FE), (p :: l).Pairwise (fun a b => a.val ≤ b.val) →
      (memoryHolesFrom codelen p l).Nodup := by
  induction l with
  | nil => intro p _; simp [memoryHolesFrom]
  | cons a t ih =>
    intro p hp
    rw [List.pairwise_cons] at hp
    obtain ⟨hpa, ht⟩ := hp
    have hpa' := hpa a (by simp)
    rw [memoryHolesFrom, List.nodup_append]
    refine ⟨?_, ih a ht, ?_⟩
    · split
      next h =>
        have h1 := (sub_cases hpa').1 ⟨h.1, h.2.1⟩
        exact holesBetween_nodup (by omega)
      · simp
    · intro x hx y hy
      rw [mem_memoryHolesFrom t a ht] at hy
      split at hx
      next h =>
        have h1 := (sub_cases hpa').1 ⟨h.1, h.2.1⟩
        rw [holesBetween_mem (by omega)] at hx
        rintro rfl
        omega
      · simp at hx

theorem getMemoryHoles_nodup {codelen : Nat} {addrs holes : List FE}
    (hs : addrs.Pairwise (fun a b => a.val ≤ b.val))
    (h : getMemoryHoles addrs codelen = .ok holes) : holes.Nodup := by
  unfold getMemoryHoles at h
  obtain _ | ⟨a, t⟩ := addrs
  · cases h
  · simp only [Outcome.ok.injEq] at h
    subst h
    apply memoryHolesFrom_nodup
    refine List.pairwise_cons.2 ⟨?_, hs⟩
    intro b hb
    rcases List.mem_cons.1 hb with rfl | hb
    · exact le_rfl
    · exact (List.pairwise_cons.1 hs).1 b hb

section
variable {mem : CairoMemory} {m : FE → FE} {states : List RegistersState}
variable {pi pi' : PublicInputs} {rows exec : List (List FE)} {rcHoles holes last1 last2 : List FE}
  {lo hi k size : Nat} {segs : MemorySegmentMap}

theorem accessed_val (run : HonestRun mem m states) (hzero : mem.get? 0 = none) {x : FE}
    (hx : Accessed m states x) : 1 ≤ x.val ∧ x.val < 2 ^ 64 := by
  have hrec : ∀ {y : FE}, Recorded mem y → 1 ≤ y.val ∧ y.val < 2 ^ 64 := by
    rintro y ⟨n, v, hn, rfl⟩
    have h64 := (run.holds n v hn).1
    rw [ZMod.val_natCast_of_lt (u64_lt_P h64)]
    refine ⟨?_, h64⟩
    by_contra h0
    obtain rfl : n = 0 := by omega
    rw [hzero] at hn; cases hn
  obtain ⟨t, ht, hx⟩ := hx
  obtain ⟨h1, h2, h3, h4⟩ := run.recorded t ht
  rcases hx with rfl | rfl | rfl | rfl
  · exact hrec h1
  · exact hrec h2
  · exact hrec h3
  · exact hrec h4

theorem rcHoleRows_accesses {w : Nat} (hw : 30 ≤ w) {hs : List FE} (h3 : 3 ∣ hs.length)
    {p : FE × FE} (hp : p ∈ accesses (rcHoleRows w hs)) : p = (0, 0) := by
  obtain ⟨r, hr, j, hj, rfl⟩ := mem_accesses.1 hp
  have h := ((Props.C17_rc_hole_rows w hw hs h3).2.2 r hr).2
  rw [h _ (by col_omega) (by col_omega) (by col_omega), h _ (by col_omega) (by col_omega)
    (by col_omega)]

/-- The addresses of the steps, sorted. -/
theorem mem_sortedAddrs (run : HonestRun mem m states)
    (h : buildCairoExecutionTrace states mem pi = .ok exec) (x : FE) :
    x ∈ (getCols exec ADDR_COLUMNS).insertionSort (fun a b => a.val ≤ b.val) ↔
      Accessed m states x := by
  rw [(List.perm_insertionSort _ _).mem_iff]
  constructor
  · intro hx
    obtain ⟨r, hr, c, hc, rfl⟩ := mem_getCols.1 hx
    have hj : ∃ j < 4, c = 19 + j := by
      simp only [ADDR_COLUMNS, List.mem_cons, List.not_mem_nil, or_false] at hc
      exact ⟨c - 19, by col_omega, by col_omega⟩
    obtain ⟨j, hj, rfl⟩ := hj
    exact ((mem_accesses_exec run h _).1 (mem_accesses.2 ⟨r, hr, j, hj, rfl⟩)).1
  · intro hx
    obtain ⟨r, hr, j, hj, he⟩ := mem_accesses.1 ((mem_accesses_exec run h (x, m x)).2 ⟨hx, rfl⟩)
    rw [mem_getCols]
    refine ⟨r, hr, 19 + j, ?_, congrArg Prod.fst he⟩
    simp only [ADDR_COLUMNS, List.mem_cons, List.not_mem_nil, or_false]
    col_omega

theorem sortedAddrs_pairwise (l : List FE) :
    (l.insertionSort (fun a b => a.val ≤ b.val)).Pairwise (fun a b => a.val ≤ b.val) := by
  have : Std.Total (fun x y : FE => x.val ≤ y.val) := ⟨fun a b => by omega⟩
  have : IsTrans FE (fun x y => x.val ≤ y.val) := ⟨fun a b c => by omega⟩
  exact List.pairwise_insertionSort _ l

/-- The public addresses are 64-bit numbers. -/
theorem public_cast (hsize : size < 2 ^ 64) (hout : OutputAfterProgram size segs) (n : Nat)
    (hn : IsPublic size segs n) : 1 ≤ n ∧ n < 2 ^ 64 ∧ ((n : FE)).val = n := by
  have h : 1 ≤ n ∧ n < 2 ^ 64 := by
    rcases hn with h | ⟨s, e, h, h1, h2⟩
    · omega
    · have := hout s e h; omega
  exact ⟨h.1, h.2, ZMod.val_natCast_of_lt (u64_lt_P h.2)⟩

/-- The public memory of an honest run. -/
theorem public_entries (run : HonestRun mem m states)
    (hpi : fromRegsAndMem states mem size segs = .ok pi) (hsize : size < 2 ^ 64)
    (hout : OutputAfterProgram size segs) (hzero : mem.get? 0 = none) :
    (∀ e ∈ pi.publicMemory, ∃ n : Nat, e.1 = (n : FE) ∧ IsPublic size segs n ∧
      1 ≤ n ∧ n < 2 ^ 64 ∧ e.2 = m (n : FE)) ∧
    (∀ n, IsPublic size segs n → ((n : FE), m (n : FE)) ∈ pi.publicMemory) ∧
    pi.publicMemory.length = size + outputCells segs := by
  obtain ⟨addrs, -, hkeys, -, -, hent, -, hso, hno⟩ := fromRegsAndMem_ok hpi hsize hout
  have h1 : ∀ e ∈ pi.publicMemory, ∃ n : Nat, e.1 = (n : FE) ∧ IsPublic size segs n ∧
      1 ≤ n ∧ n < 2 ^ 64 ∧ e.2 = m (n : FE) := by
    intro e he
    obtain ⟨n, h1, h2, h3⟩ := hent e he
    obtain ⟨h64, hm⟩ := run.holds n _ h1
    refine ⟨n, h2, h3, ?_, h64, hm.symm⟩
    by_contra h0
    obtain rfl : n = 0 := by omega
    rw [hzero] at h1; cases h1
  refine ⟨h1, ?_, ?_⟩
  · intro n hn
    have hmem : (n : FE) ∈ addrs := by
      cases ho : segs.get? .output with
      | none =>
        rw [hno ho]
        rcases hn with h | ⟨s, e, h, -⟩
        · exact List.mem_map.2 ⟨n, by rw [List.mem_range'_1]; omega, rfl⟩
        · rw [ho] at h; cases h
      | some r =>
        obtain ⟨s, e⟩ := r
        rw [hso s e ho]
        rcases hn with h | ⟨s', e', h, h1, h2⟩
        · exact List.mem_append_left _ (List.mem_map.2 ⟨n, by rw [List.mem_range'_1]; omega, rfl⟩)
        · rw [ho] at h
          cases h
          exact List.mem_append_right _ (List.mem_map.2 ⟨n, by rw [List.mem_range'_1]; omega, rfl⟩)
    rw [← hkeys, List.mem_map] at hmem
    obtain ⟨e, he, h⟩ := hmem
    obtain ⟨n', h1, -, -, -, h3⟩ := h1 e he
    rw [← h, show e.1 = e.1 from rfl]
    have : e = (e.1, m e.1) := Prod.ext rfl (by rw [h3, h1])
    rw [← this]
    exact he
  · have hl : pi.publicMemory.length = addrs.length := by rw [← hkeys, List.length_map]
    unfold outputCells
    cases ho : segs.get? .output with
    | none => rw [hl, hno ho]; simp
    | some r =>
      obtain ⟨s, e⟩ := r
      rw [hl, hso s e ho]
      simp

/-- What the accesses of the trace of an honest run are. -/
theorem main_entries (run : HonestRun mem m states)
    (M : MainSpec states mem pi rows pi' exec rcHoles lo hi holes last1 last2 k) :
    (accesses rows).drop (4 * rows.length - pi.publicMemory.length)
      = List.replicate pi.publicMemory.length (0, 0) ∧
    (∀ x, x ∈ holes ↔ pi.publicMemory.length < x.val ∧ ¬ Accessed m states x ∧
      (∃ a, Accessed m states a ∧ a.val < x.val) ∧ ∃ b, Accessed m states b ∧ x.val < b.val) ∧
    ∀ all, all = (accesses rows).take (4 * rows.length - pi.publicMemory.length) ++ pi.publicMemory →
      (∀ p ∈ all, p = (0, 0) ∨ (Accessed m states p.1 ∧ p.2 = m p.1) ∨
        (∃ i < holes.length, p = (holes.getD i 0, last1.getD (23 + i % 4) 0)) ∨ p ∈ pi.publicMemory) ∧
      ((0, 0) ∈ all) ∧ (∀ x, Accessed m states x → (x, m x) ∈ all) ∧ (∀ x ∈ holes, ∃ v, (x, v) ∈ all) ∧
      ∀ p ∈ accesses rows, p ∈ all := by
  have hge := mainWidth_ge pi
  obtain ⟨hw1, hw2, -, -⟩ := M.width
  set L := pi.publicMemory.length with hL
  have hk := M.k_ge
  rw [← hL] at hk
  set base := exec ++ rcHoleRows (mainWidth pi) rcHoles ++ memoryHoleRows last1 holes with hbase
  have hacc : accesses rows = accesses base ++ List.replicate (4 * k) (0, 0) := by
    rw [M.rows_eq, accesses_append, accesses_zeroed _ (by omega)]
  have hlenR : rows.length = base.length + k := by
    rw [M.rows_eq, List.length_append, List.length_replicate]
  have hlenB := length_accesses base
  have hcut : 4 * rows.length - L = (accesses base).length + (4 * k - L) := by omega
  have hsorted := sortedAddrs_pairwise (getCols exec ADDR_COLUMNS)
  have hholes := mem_getMemoryHoles hsorted M.holes_eq
  simp only [mem_sortedAddrs run M.exec_eq] at hholes
  refine ⟨?_, hholes, ?_⟩
  · rw [hacc, hcut, ← List.drop_drop, List.drop_left, List.drop_replicate]
    congr 1; omega
  rintro all rfl
  rw [hacc, hcut, List.take_length_add_append, List.take_replicate,
    Nat.min_eq_left (Nat.sub_le _ _)]
  obtain ⟨hoff1, hoff2⟩ := offsets16 run M.exec_eq
  obtain ⟨rcHoles', lo', hi', heq, -, -, -, -, h3, -⟩ := Props.C17_rc_holes _ hoff1 hoff2
  rw [M.rc_eq] at heq
  simp only [Outcome.ok.injEq, Prod.mk.injEq] at heq
  obtain ⟨rfl, rfl, rfl⟩ := heq
  have htr1 : ∀ p ∈ accesses (exec ++ rcHoleRows (mainWidth pi) rcHoles),
      p = (0, 0) ∨ (Accessed m states p.1 ∧ p.2 = m p.1) := by
    intro p hp
    rw [accesses_append] at hp
    rcases List.mem_append.1 hp with hp | hp
    · exact Or.inr ((mem_accesses_exec run M.exec_eq p).1 hp)
    · exact Or.inl (rcHoleRows_accesses (by omega) h3 hp)
  have hm1 := List.mem_of_getLast? M.last1_eq
  have hbaseacc : ∀ p ∈ accesses base, p = (0, 0) ∨ (Accessed m states p.1 ∧ p.2 = m p.1) ∨
      ∃ i < holes.length, p = (holes.getD i 0, last1.getD (23 + i % 4) 0) := by
    intro p hp
    rw [hbase, accesses_append] at hp
    rcases List.mem_append.1 hp with hp | hp
    · rcases htr1 p hp with h | h
      · exact Or.inl h
      · exact Or.inr (Or.inl h)
    · rcases mem_accesses_holes (by omega) hp with ⟨i, hi, h⟩ | h
      · exact Or.inr (Or.inr ⟨i, hi, h⟩)
      · have : p ∈ accesses (exec ++ rcHoleRows (mainWidth pi) rcHoles) := by
          obtain ⟨r, hr, j, hj, rfl⟩ := mem_accesses.1 h
          rw [List.mem_singleton.1 hr]
          exact mem_accesses.2 ⟨last1, hm1, j, hj, rfl⟩
        rcases htr1 p this with h | h
        · exact Or.inl h
        · exact Or.inr (Or.inl h)
  have hzeros : ((0, 0) : FE × FE) ∈ (accesses base ++ List.replicate (4 * k - L) ((0, 0) : FE × FE)) ++
      pi.publicMemory :=
    List.mem_append_left _ (List.mem_append_right _ (List.mem_replicate.2 ⟨by omega, rfl⟩))
  refine ⟨?_, hzeros, ?_, ?_, ?_⟩
  · intro p hp
    rcases List.mem_append.1 hp with hp | hp
    · rcases List.mem_append.1 hp with hp | hp
      · rcases hbaseacc p hp with h | h | h
        · exact .inl h
        · exact .inr (.inl h)
        · exact .inr (.inr (.inl h))
      · exact .inl (List.eq_of_mem_replicate hp)
    · exact .inr (.inr (.inr hp))
  · intro x hx
    refine List.mem_append_left _ (List.mem_append_left _ ?_)
    rw [hbase, accesses_append, accesses_append]
    exact List.mem_append_left _ (List.mem_append_left _
      ((mem_accesses_exec run M.exec_eq _).2 ⟨hx, rfl⟩))
  · intro x hx
    obtain ⟨v, hv⟩ := holes_accessed (last := last1) (by omega) hx
    refine ⟨v, List.mem_append_left _ (List.mem_append_left _ ?_)⟩
    rw [hbase, accesses_append]
    exact List.mem_append_right _ hv
  · intro p hp
    rcases List.mem_append.1 hp with hp | hp
    · exact List.mem_append_left _ (List.mem_append_left _ hp)
    · rw [List.eq_of_mem_replicate hp]
      exact hzeros

/-- The accesses of the whole trace, with the public memory in place of the last dummies, are those of one memory
without gaps, if no address is left out and what is filled up at a public address is its value. -/
theorem main_memory_of (run : HonestRun mem m states)
    (M : MainSpec states mem pi rows pi' exec rcHoles lo hi holes last1 last2 k)
    (hpi : fromRegsAndMem states mem size segs = .ok pi) (hsize : size < 2 ^ 64)
    (hout : OutputAfterProgram size segs) (hzero : mem.get? 0 = none)
    (hpc : ∃ t ∈ states, t.pc ≤ size) (hgap : NoGap m states size segs)
    (hval : ∀ e ∈ accesses rows, ∀ n, IsPublic size segs n → e.1 = (n : FE) → e.2 = m (n : FE)) :
    (accesses rows).drop (4 * rows.length - pi.publicMemory.length)
      = List.replicate pi.publicMemory.length (0, 0) ∧
    ∀ all, all = (accesses rows).take (4 * rows.length - pi.publicMemory.length) ++ pi.publicMemory →
      (∃ f : FE → FE, ∀ p ∈ all, p.2 = f p.1) ∧
      ∀ x : Nat, (∃ p ∈ all, p.1.val < x) → (∃ p ∈ all, x < p.1.val) → ∃ p ∈ all, p.1.val = x := by
  obtain ⟨hpubval, hpubin, hpublen⟩ := public_entries run hpi hsize hout hzero
  obtain ⟨hdrop, hholes, hall⟩ := main_entries run M
  refine ⟨hdrop, fun all hallDef => ?_⟩
  obtain ⟨hent, h00, hacc, hhole, hsub⟩ := hall all hallDef
  have hpuball : ∀ e ∈ pi.publicMemory, e ∈ all := fun e he => hallDef ▸ List.mem_append_right _ he
  have hna : ∀ x, Accessed m states x → x ≠ 0 := by
    rintro x hx rfl
    have := (accessed_val run hzero hx).1
    simp at this
  have hpubcast := public_cast hsize hout
  have hnd := getMemoryHoles_nodup (sortedAddrs_pairwise (getCols exec ADDR_COLUMNS)) M.holes_eq
  constructor
  · classical
    refine ⟨fun x => if x = 0 then 0 else if Accessed m states x ∨ ∃ n, IsPublic size segs n ∧ x = (n : FE)
      then m x else last1.getD (23 + holes.idxOf x % 4) 0, fun p hp => ?_⟩
    dsimp only
    rcases hent p hp with rfl | ⟨h1, h2⟩ | ⟨i, hi, rfl⟩ | h
    · simp
    · rw [if_neg (hna _ h1), if_pos (.inl h1), h2]
    · have hmem : holes.getD i 0 ∈ holes := by
        rw [List.getD_eq_getElem _ _ hi]; exact List.getElem_mem _
      obtain ⟨h1, h2, -, -⟩ := (hholes _).1 hmem
      have h0 : holes.getD i 0 ≠ 0 := by
        intro h
        rw [h] at h1; simp at h1
      dsimp only
      rw [if_neg h0]
      split_ifs with hc
      · rcases hc with h | ⟨n, hn, h⟩
        · exact absurd h h2
        · rcases List.mem_append.1 (hallDef ▸ hp) with h' | h'
          · rw [h]
            exact hval _ (List.mem_of_mem_take h') n hn h
          · obtain ⟨n', h3, -, -, -, h4⟩ := hpubval _ h'
            simp only at h3 h4
            rw [h4, h3]
      · rw [List.getD_eq_getElem _ _ hi, hnd.idxOf_getElem]
    · obtain ⟨n, h1, h2, h3, h4, h5⟩ := hpubval p h
      have h0 : p.1 ≠ 0 := by
        intro h
        have := (hpubcast n h2).2.2
        rw [← h1, h] at this
        simp at this; omega
      rw [if_neg h0, if_pos (.inr ⟨n, h2, h1⟩), h5, h1]
  · rintro x ⟨a, ha, hax⟩ ⟨b, hb', hxb⟩
    have hx1 : 0 < x := by omega
    have hxP : x < P := lt_trans hxb (ZMod.val_lt b.1)
    have hxval : ((x : FE)).val = x := ZMod.val_natCast_of_lt hxP
    have hbeyond : UsedBeyond m states size segs x := by
      rcases hent b hb' with rfl | ⟨h1, -⟩ | ⟨i, hi, rfl⟩ | h
      · simp at hxb
      · exact .inl ⟨_, h1, hxb⟩
      · have hmem : holes.getD i 0 ∈ holes := by
          rw [List.getD_eq_getElem _ _ hi]; exact List.getElem_mem _
        obtain ⟨-, -, -, c, hc, hlt⟩ := (hholes _).1 hmem
        exact .inl ⟨c, hc, lt_trans hxb hlt⟩
      · obtain ⟨n, h1, h2, -⟩ := hpubval b h
        rw [h1, (hpubcast n h2).2.2] at hxb
        exact .inr ⟨n, h2, hxb⟩
    rcases hgap x hx1 hbeyond with h | h | ⟨h, c, hc, hxc⟩
    · exact ⟨_, hacc _ h, hxval⟩
    · exact ⟨_, hpuball _ (hpubin x h), hxval⟩
    · by_cases hax' : Accessed m states (x : FE)
      · exact ⟨_, hacc _ hax', hxval⟩
      · obtain ⟨t, ht, htpc⟩ := hpc
        obtain ⟨v, hv⟩ := hhole (x : FE) ((hholes _).2 ⟨by rw [hxval, hpublen]; exact h, hax',
          ⟨(t.pc : FE), ⟨t, ht, Or.inl rfl⟩, by
            rw [hxval, ZMod.val_natCast_of_lt (u64_lt_P (by omega))]; omega⟩,
          c, hc, by rw [hxval]; exact hxc⟩)
        exact ⟨_, hv, hxval⟩

/-- The accesses of the whole trace, with the public memory in place of the last dummies. -/
theorem main_memory (run : HonestRun mem m states)
    (M : MainSpec states mem pi rows pi' exec rcHoles lo hi holes last1 last2 k)
    (hpi : fromRegsAndMem states mem size segs = .ok pi) (hsize : size < 2 ^ 64)
    (hout : OutputAfterProgram size segs) (hzero : mem.get? 0 = none)
    (hpc : ∃ t ∈ states, t.pc ≤ size) (hcov : OutputCovered m states size segs) :
    (accesses rows).drop (4 * rows.length - pi.publicMemory.length)
      = List.replicate pi.publicMemory.length (0, 0) ∧
    ∀ all, all = (accesses rows).take (4 * rows.length - pi.publicMemory.length) ++ pi.publicMemory →
      (∃ f : FE → FE, ∀ p ∈ all, p.2 = f p.1) ∧
      ∀ x : Nat, (∃ p ∈ all, p.1.val < x) → (∃ p ∈ all, x < p.1.val) → ∃ p ∈ all, p.1.val = x := by
  refine main_memory_of run M hpi hsize hout hzero hpc hcov.noGap fun e he n hn hen => ?_
  obtain ⟨hn1, -, hval⟩ := public_cast hsize hout n hn
  obtain ⟨hpubval, -, hlen⟩ := public_entries run hpi hsize hout hzero
  obtain ⟨-, hholes, hall⟩ := main_entries run M
  obtain ⟨hent, -, -, -, hsub⟩ := hall _ rfl
  rcases hent e (hsub e he) with rfl | ⟨-, h2⟩ | ⟨i, hi, rfl⟩ | h
  · rw [← hen] at hval
    simp at hval; omega
  · rw [h2, hen]
  · have hmem : holes.getD i 0 ∈ holes := by
      rw [List.getD_eq_getElem _ _ hi]; exact List.getElem_mem _
    obtain ⟨h1, h2, -, b, h3, h4⟩ := (hholes _).1 hmem
    simp only at hen
    rw [hen] at h1 h2 h4
    rw [hval] at h1 h4
    exact absurd (hcov.touched n hn ⟨by omega, b, h3, h4⟩) h2
  · obtain ⟨n', h1, -, -, -, h5⟩ := hpubval e h
    rw [h5, ← hen, h1]

/-- Without an output segment no address is left out. -/
theorem covered_of_no_output (h : segs.get? .output = none) : OutputCovered m states size segs := by
  have hcells : outputCells segs = 0 := by unfold outputCells; rw [h]
  have hpub : ∀ n, IsPublic size segs n → 1 ≤ n ∧ n ≤ size := by
    rintro n (hn | ⟨s, e, hs, -⟩)
    · exact hn
    · rw [h] at hs; cases hs
  constructor
  · intro n hn hb
    by_cases hs : n ≤ size
    · exact .inr (.inl (.inl ⟨hn, hs⟩))
    · rcases hb with ⟨x, hx, hlt⟩ | ⟨b, hb, hlt⟩
      · exact .inr (.inr ⟨by omega, x, hx, hlt⟩)
      · have := hpub b hb; omega
  · intro n hn hf
    have := hpub n hn
    have := hf.1
    omega

end
end Verif.ExecTrace
