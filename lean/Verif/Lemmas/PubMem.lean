import Verif.Lemmas.AuxTrace
import Verif.Spec.Run

/-! Helper lemmas about the public memory of a run. -/

namespace Verif.ExecTrace
open CairoAir Spec

theorem publicCells_ok {mem : CairoMemory} {s l : Nat} {cells : List (FE × FE)}
    (h : publicCells mem s l = .ok cells) :
    cells.map Prod.fst = (List.range' s l).map (fun n : Nat => (n : FE)) ∧
    ∀ e ∈ cells, ∃ n, s ≤ n ∧ n < s + l ∧ e.1 = (n : FE) ∧ mem.get? n = some e.2 := by
  induction l generalizing s cells with
  | zero => simp [publicCells, mapOutcome] at h; subst h; simp
  | succ l ih =>
    unfold publicCells at h ih
    rw [List.range'_succ] at h
    simp only [mapOutcome, Outcome.bind_eq_ok, Outcome.pure_eq, Outcome.ok.injEq] at h
    obtain ⟨b, ⟨v, hv, rfl⟩, bs, hbs, rfl⟩ := h
    obtain ⟨h1, h2⟩ := ih hbs
    refine ⟨by rw [List.range'_succ, List.map_cons, List.map_cons, h1], ?_⟩
    intro e he
    rcases List.mem_cons.1 he with rfl | he
    · refine ⟨s, le_refl _, by omega, rfl, ?_⟩
      unfold memGet Outcome.ofOptionUnwrap at hv
      cases hg : mem.get? s with
      | none => rw [hg] at hv; cases hv
      | some w => rw [hg] at hv; simp at hv; rw [← hv]
    · obtain ⟨n, h3, h4, h5⟩ := h2 e he
      exact ⟨n, by omega, by omega, h5⟩

theorem castList_nodup {l : List Nat} (hl : l.Nodup) (hb : ∀ n ∈ l, n < P) :
    (l.map (fun n : Nat => (n : FE))).Nodup := by
  rw [List.nodup_map_iff_inj_on hl]
  intro a ha b hb' hab
  have := congrArg ZMod.val hab
  rwa [ZMod.val_natCast_of_lt (hb a ha), ZMod.val_natCast_of_lt (hb b hb')] at this

/-- The public memory of a run: its entries, and the list of its addresses. -/
theorem fromRegsAndMem_ok {states : List RegistersState} {mem : CairoMemory} {size : Nat}
    {segs : MemorySegmentMap} {pi : PublicInputs}
    (h : fromRegsAndMem states mem size segs = .ok pi) (hsize : size < 2 ^ 64)
    (hout : OutputAfterProgram size segs) :
    ∃ addrs, getPubMemoryAddrs (segs.get? .output) pi.publicMemory.length = .ok addrs ∧
      pi.publicMemory.map Prod.fst = addrs ∧ addrs.Nodup ∧ pi.memorySegments = segs ∧
      (∀ e ∈ pi.publicMemory, ∃ n, mem.get? n = some e.2 ∧ e.1 = (n : FE) ∧ IsPublic size segs n) ∧
      pi.numSteps = states.length ∧
      (∀ (s e : Nat), segs.get? .output = some (s, e) →
        addrs = (List.range' 1 size).map (fun n : Nat => (n : FE)) ++
          (List.range' s (e - s)).map (fun n : Nat => (n : FE))) ∧
      (segs.get? .output = none → addrs = (List.range' 1 size).map (fun n : Nat => (n : FE))) := by
  unfold fromRegsAndMem at h
  simp only [Outcome.bind_eq_ok, Outcome.pure_eq, Outcome.ok.injEq] at h
  obtain ⟨prog, hprog, out, hout', last, -, first, -, rfl⟩ := h
  obtain ⟨p1, p2⟩ := publicCells_ok hprog
  have hP64 : (2 : Nat) ^ 64 < P := lt_trans (by norm_num) P_gt
  cases ho : segs.get? .output with
  | none =>
    rw [ho] at hout'
    simp only [Outcome.ok.injEq] at hout'
    subst hout'
    have hnd : ((List.range' 1 size).map (fun n : Nat => (n : FE))).Nodup := by
      apply castList_nodup List.nodup_range'
      intro n hn; rw [List.mem_range'_1] at hn; omega
    have hpm : insertAll (prog ++ []) = prog := by
      rw [List.append_nil]
      unfold insertAll
      rw [HMap.foldl_insert_append prog [] (by rw [List.nil_append]; unfold HMap.WF; rwa [p1])]
      rfl
    simp only [hpm]
    have hlen : prog.length = size := by
      have := congrArg List.length p1; simpa using this
    refine ⟨_, ?_, p1, hnd, trivial, ?_, trivial, ?_, fun _ => rfl⟩
    · rw [hlen]; rfl
    · intro e he; obtain ⟨n, h3, h4, h1, h2⟩ := p2 e he
      exact ⟨n, h2, h1, Or.inl ⟨h3, by omega⟩⟩
    · intro s e h; cases h
  | some r =>
    obtain ⟨s, e⟩ := r
    rw [ho] at hout'
    simp only at hout'
    obtain ⟨q1, q2⟩ := publicCells_ok hout'
    obtain ⟨h1, h2, h3⟩ := hout s e ho
    have hnd : ((List.range' 1 size).map (fun n : Nat => (n : FE)) ++
          (List.range' s (e - s)).map (fun n : Nat => (n : FE))).Nodup := by
      rw [← List.map_append]
      apply castList_nodup
      · rw [List.nodup_append]
        refine ⟨List.nodup_range', List.nodup_range', ?_⟩
        intro a ha b hb
        rw [List.mem_range'_1] at ha hb; omega
      · intro n hn
        rw [List.mem_append, List.mem_range'_1, List.mem_range'_1] at hn; omega
    have hkeys : (prog ++ out).map Prod.fst = (List.range' 1 size).map (fun n : Nat => (n : FE)) ++
          (List.range' s (e - s)).map (fun n : Nat => (n : FE)) := by rw [List.map_append, p1, q1]
    have hpm : insertAll (prog ++ out) = prog ++ out := by
      unfold insertAll
      rw [HMap.foldl_insert_append (prog ++ out) []
        (by rw [List.nil_append]; unfold HMap.WF; rwa [hkeys])]
      rfl
    simp only [hpm]
    have hlen : (prog ++ out).length = size + (e - s) := by
      have := congrArg List.length hkeys; simpa using this
    refine ⟨_, ?_, hkeys, hnd, trivial, ?_, trivial, ?_, ?_⟩
    · unfold getPubMemoryAddrs
      simp only
      rw [if_pos ⟨h2, by omega⟩, hlen, Nat.add_sub_cancel]
    · intro x hx
      rcases List.mem_append.1 hx with hx | hx
      · obtain ⟨n, h3, h4, h1, h2⟩ := p2 x hx; exact ⟨n, h2, h1, Or.inl ⟨h3, by omega⟩⟩
      · obtain ⟨n, h3, h4, h1, h2⟩ := q2 x hx
        exact ⟨n, h2, h1, Or.inr ⟨s, e, ho, h3, by omega⟩⟩
    · intro s' e' h; cases h; rfl
    · intro h; cases h

end Verif.ExecTrace
