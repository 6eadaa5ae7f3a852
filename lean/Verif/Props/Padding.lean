import Verif.Lemmas.Holes

/-!
# Properties of the padding of the main trace: C17, C18
-/

namespace Verif.Props
open Verif.ExecTrace Verif.CairoAir

/-- **C17.** For every non-empty list of 16-bit offsets the range-check padding exists; the reported
minimum and maximum are offsets; offsets and added values together take exactly the values between
them; and the added values are the missing ones, each once, followed by at most two repeats of the
maximum. -/
theorem C17_rc_holes (offsets : List FE) (hne : offsets ≠ [])
    (h16 : ∀ x ∈ offsets, x.val < 2 ^ 16) :
    ∃ holes lo hi, getRcHoles offsets = .ok (holes, lo, hi) ∧
      (lo : FE) ∈ offsets ∧ (hi : FE) ∈ offsets ∧ hi < 2 ^ 16 ∧
      (∀ v : FE, v ∈ offsets ++ holes ↔ lo ≤ v.val ∧ v.val ≤ hi) ∧
      3 ∣ holes.length ∧
      ∃ missing pad, holes = missing ++ List.replicate pad (hi : FE) ∧ pad < 3 ∧
        missing.Nodup ∧ ∀ v ∈ missing, v ∉ offsets := by
  obtain ⟨⟨holes, lo, hi⟩, h⟩ := getRcHoles_exists hne
  obtain ⟨missing, pad, hpad, hdvd, hh, hnd, ⟨x, hx, hxlo⟩, ⟨y, hy, hyhi⟩, hb, hm⟩ := getRcHoles_ok h
  have hval : ∀ x ∈ offsets, x.val % 2 ^ 16 = x.val := fun x hx => Nat.mod_eq_of_lt (h16 x hx)
  have hlo : x.val = lo := by rw [← hval x hx, hxlo]
  have hhi : y.val = hi := by rw [← hval y hy, hyhi]
  have hhi16 : hi < 2 ^ 16 := by rw [← hhi]; exact h16 y hy
  have hP : 2 ^ 16 < P := lt_trans (by norm_num) P_gt
  have hcv : ∀ n, n ≤ hi → ((n : FE)).val = n := fun n hn => ZMod.val_natCast_of_lt (by omega)
  have hxF : (lo : FE) = x := by rw [← hlo]; exact ZMod.natCast_zmod_val x
  have hyF : (hi : FE) = y := by rw [← hhi]; exact ZMod.natCast_zmod_val y
  have hcast : ∀ n, n ≤ hi → ((n : FE) ∈ offsets ↔ ∃ z ∈ offsets, z.val = n) := by
    intro n hn
    constructor
    · intro hz; exact ⟨_, hz, hcv n hn⟩
    · rintro ⟨z, hz, rfl⟩; rwa [ZMod.natCast_zmod_val]
  refine ⟨holes, lo, hi, h, hxF ▸ hx, hyF ▸ hy, hhi16, ?_, ?_,
    missing.map (fun n : Nat => (n : FE)), pad, ?_, hpad, ?_, ?_⟩
  · intro v
    rw [List.mem_append, hh, List.mem_map]
    constructor
    · rintro (hv | ⟨n, hn, rfl⟩)
      · have := hb v hv; rwa [hval v hv] at this
      · have hle : lo ≤ n ∧ n ≤ hi := by
          rcases List.mem_append.1 hn with hn | hn
          · have := (hm n).1 hn; omega
          · have := List.eq_of_mem_replicate hn
            have := (hb y hy).1
            rw [hval y hy] at this
            omega
        rw [hcv n hle.2]; exact hle
    · rintro ⟨h1, h2⟩
      by_cases hv : v ∈ offsets
      · exact Or.inl hv
      · refine Or.inr ⟨v.val, List.mem_append_left _ ((hm _).2 ⟨h1, h2, ?_⟩),
          ZMod.natCast_zmod_val v⟩
        intro z hz hzv
        rw [hval z hz] at hzv
        exact hv (ZMod.val_injective P hzv ▸ hz)
  · rw [hh]; simpa using hdvd
  · rw [hh]; simp
  · rw [List.nodup_map_iff_inj_on hnd]
    intro a ha b hb' hab
    have := congrArg ZMod.val hab
    rwa [hcv a ((hm a).1 ha).2.1, hcv b ((hm b).1 hb').2.1] at this
  · intro v hv
    obtain ⟨n, hn, rfl⟩ := List.mem_map.1 hv
    obtain ⟨-, h2, h3⟩ := (hm n).1 hn
    rw [hcast n h2]
    rintro ⟨z, hz, hzn⟩
    exact h3 z hz (by rw [hval z hz, hzn])

/-- **C17**, placement: the three offset cells of the appended rows, read row by row, are exactly
the added values, and all other cells of these rows are zero. -/
theorem C17_rc_hole_rows (nCols : Nat) (hn : 30 ≤ nCols) (holes : List FE) (h3 : 3 ∣ holes.length) :
    getCols (rcHoleRows nCols holes) [OFF_DST, OFF_OP0, OFF_OP1] = holes ∧
    (rcHoleRows nCols holes).length = holes.length / 3 ∧
    ∀ row ∈ rcHoleRows nCols holes, row.length = nCols ∧
      ∀ c, c ≠ OFF_DST → c ≠ OFF_OP0 → c ≠ OFF_OP1 → row.getD c 0 = 0 := by
  obtain ⟨k, hk⟩ := h3
  induction k generalizing holes with
  | zero =>
    have : holes = [] := by simpa using hk
    subst this
    simp [rcHoleRows, getCols]
  | succ k ih =>
    match holes, hk with
    | a :: b :: c :: t, hk =>
      obtain ⟨h1, h2, h3⟩ := ih t (by simp at hk; omega)
      refine ⟨?_, ?_, ?_⟩
      · unfold getCols at h1 ⊢
        rw [rcHoleRows, List.flatMap_cons, h1]
        simp [List.replicate_succ]
      · rw [rcHoleRows, List.length_cons, h2]; simp; omega
      · intro row hr
        rw [rcHoleRows] at hr
        rcases List.mem_cons.1 hr with rfl | hr
        · refine ⟨by simp [OFF_DST, OFF_OP1]; omega, ?_⟩
          intro j h27 h28 h29
          rw [List.getD_eq_getElem?_getD]
          by_cases hj : j < 27
          · rw [List.append_assoc, List.getElem?_append_left (by simpa using hj)]
            simp [hj]
          · simp only [OFF_DST, OFF_OP0, OFF_OP1] at h27 h28 h29
            rw [List.getElem?_append_right (by simp [OFF_DST]; omega)]
            simp only [List.length_append, List.length_replicate, List.length_cons, List.length_nil]
            rw [List.getElem?_replicate]
            split <;> simp
        · exact h3 row hr
    | [], hk => simp at hk
    | [_], hk => simp at hk; omega
    | [_, _], hk => simp at hk; omega

/-- A list meeting the hypotheses: the values 4, 6 and 7 are missing, so three are added. -/
example : ([3, 5, 8] : List FE) ≠ [] ∧ (∀ x ∈ ([3, 5, 8] : List FE), x.val < 2 ^ 16) ∧
    getRcHoles [3, 5, 8] = .ok ([4, 6, 7], 3, 8) := by
  refine ⟨by simp, by simp; decide +kernel, ?_⟩
  decide +kernel

/-- **C18.** For accessed addresses sorted by value, starting within the program or right after it,
the added holes are exactly the addresses beyond the program that lie between accessed addresses and
are not accessed; together with the program addresses `1..codelen` the accesses form an interval
without gaps. -/
theorem C18_memory_holes_partial (addrs : List FE) (codelen : Nat) (hne : addrs ≠ [])
    (hsorted : addrs.Pairwise (fun a b => a.val ≤ b.val))
    (hpos : ∀ a ∈ addrs, 1 ≤ a.val) (hfirst : ∃ a ∈ addrs, a.val ≤ codelen + 1) :
    ∃ holes, getMemoryHoles addrs codelen = .ok holes ∧
      (∀ x ∈ holes, x ∉ addrs ∧ codelen < x.val) ∧
      ∃ last, (last = codelen ∨ ∃ a ∈ addrs, a.val = last) ∧
        ∀ x : FE, (x ∈ addrs ∨ x ∈ holes ∨ (1 ≤ x.val ∧ x.val ≤ codelen)) ↔
          (1 ≤ x.val ∧ x.val ≤ last) := by
  have hex : ∃ holes, getMemoryHoles addrs codelen = .ok holes := by
    unfold getMemoryHoles
    obtain ⟨a, t, rfl⟩ := List.exists_cons_of_ne_nil hne
    exact ⟨_, rfl⟩
  obtain ⟨holes, hok⟩ := hex
  have hm := mem_getMemoryHoles hsorted hok
  refine ⟨holes, hok, fun x hx => ⟨((hm x).1 hx).2.1, ((hm x).1 hx).1⟩, ?_⟩
  -- the last address
  obtain ⟨b, hb, hbmax⟩ : ∃ b ∈ addrs, ∀ a ∈ addrs, a.val ≤ b.val := by
    clear hm hok hpos hfirst
    induction addrs with
    | nil => exact absurd rfl hne
    | cons a t ih =>
      by_cases ht : t = []
      · subst ht; exact ⟨a, by simp, by simp⟩
      · obtain ⟨b, hb, hmax⟩ := ih ht (List.pairwise_cons.1 hsorted).2
        refine ⟨b, List.mem_cons_of_mem _ hb, ?_⟩
        intro c hc
        rcases List.mem_cons.1 hc with rfl | hc
        · exact (List.pairwise_cons.1 hsorted).1 b hb
        · exact hmax c hc
  refine ⟨max codelen b.val, ?_, ?_⟩
  · rcases le_total codelen b.val with h | h
    · exact Or.inr ⟨b, hb, (max_eq_right h).symm⟩
    · exact Or.inl (max_eq_left h)
  · intro x
    obtain ⟨f, hf, hfc⟩ := hfirst
    constructor
    · rintro (hx | hx | hx)
      · have := hpos x hx; have := hbmax x hx; omega
      · obtain ⟨h1, -, -, c, hc, hxc⟩ := (hm x).1 hx
        have := hbmax c hc; omega
      · omega
    · rintro ⟨h1, h2⟩
      by_cases hc : x.val ≤ codelen
      · exact Or.inr (Or.inr ⟨h1, hc⟩)
      · by_cases hx : x ∈ addrs
        · exact Or.inl hx
        · have hxb : x.val ≠ b.val := fun h => hx (ZMod.val_injective P h ▸ hb)
          have hxf : x.val ≠ f.val := fun h => hx (ZMod.val_injective P h ▸ hf)
          exact Or.inr (Or.inl ((hm x).2 ⟨by omega, hx, ⟨f, hf, by omega⟩, b, hb, by omega⟩))

/-- Addresses meeting the hypotheses of C18: program `1..5`, accesses with a hole at 7. -/
example : getMemoryHoles ([1, 2, 6, 8] : List FE) 5 = .ok [7] ∧
    ([1, 2, 6, 8] : List FE).Pairwise (fun a b => a.val ≤ b.val) := by
  constructor <;> decide +kernel

/-- **C18 is false when the public memory contains an output segment.** The caller passes the size
of the whole public memory as the program length. With a three-cell program, an output segment at
`[8, 10)` and accesses `1, 2, 3, 4, 7`, the public memory has five cells, so the hole at 5 is not
filled: neither the accesses nor the holes nor the public memory contain address 5. (The holes also
end at the last access, so that an output segment starting later leaves a gap.) -/
theorem C18_output_segment_leaves_gap :
    ∃ (addrs : List FE) (program output : List FE),
      addrs.Pairwise (fun a b => a.val ≤ b.val) ∧
      program = [1, 2, 3] ∧ output = [8, 9] ∧
      ∃ holes, getMemoryHoles addrs (program ++ output).length = .ok holes ∧
        (5 : FE) ∉ addrs ++ holes ++ program ++ output ∧
        (4 : FE) ∈ addrs ∧ (7 : FE) ∈ addrs := by
  refine ⟨[1, 2, 3, 4, 7], [1, 2, 3], [8, 9], by decide +kernel, rfl, rfl, [6], ?_, ?_, ?_, ?_⟩
  all_goals decide +kernel

end Verif.Props
