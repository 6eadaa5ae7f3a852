import Verif.Model.ExecutionTrace
import Verif.Lemmas.Decode
import Mathlib.Tactic.IntervalCases

/-! Helper lemmas about range-check holes and memory holes. -/

namespace Verif.ExecTrace

theorem sortNat_perm (l : List Nat) : (sortNat l).Perm l := List.perm_insertionSort _ _

theorem sortNat_pairwise (l : List Nat) : (sortNat l).Pairwise (· ≤ ·) := by
  exact List.pairwise_insertionSort _ l

theorem mem_sortNat {l : List Nat} {x : Nat} : x ∈ sortNat l ↔ x ∈ l := (sortNat_perm l).mem_iff

theorem mem_missingValues {l : List Nat} (hl : l.Pairwise (· ≤ ·)) {x : Nat} :
    x ∈ missingValues l ↔ x ∉ l ∧ (∃ a ∈ l, a < x) ∧ ∃ b ∈ l, x < b := by
  induction l with
  | nil => simp [missingValues]
  | cons a t ih =>
    cases t with
    | nil =>
      simp only [missingValues, List.not_mem_nil, List.mem_singleton, exists_eq_left, false_iff]
      omega
    | cons b t =>
      have hp := hl
      rw [List.pairwise_cons] at hl
      obtain ⟨ha, ht⟩ := hl
      have hab := ha b (by simp)
      have ih' := ih ht
      have htb : ∀ c ∈ t, b ≤ c := (List.pairwise_cons.1 ht).1
      have hrange : x ∈ (if b ≠ a then List.range' (a + 1) (b - (a + 1)) else []) ↔ a < x ∧ x < b := by
        split
        · rw [List.mem_range'_1]; omega
        · simp; omega
      rw [missingValues, List.mem_append, hrange, ih']
      constructor
      · rintro (⟨h1, h2⟩ | ⟨h1, ⟨c, hc, hcx⟩, d, hd, hxd⟩)
        · refine ⟨?_, ⟨a, by simp, h1⟩, b, by simp, h2⟩
          intro hx
          rcases List.mem_cons.1 hx with rfl | hx
          · omega
          · rcases List.mem_cons.1 hx with rfl | hx
            · omega
            · have := htb x hx; omega
        · refine ⟨?_, ⟨c, List.mem_cons_of_mem _ hc, hcx⟩, d, List.mem_cons_of_mem _ hd, hxd⟩
          intro hx
          rcases List.mem_cons.1 hx with rfl | hx
          · have := ha c hc; omega
          · exact h1 hx
      · rintro ⟨h1, ⟨c, hc, hcx⟩, d, hd, hxd⟩
        have hxa : x ≠ a := fun h => h1 (by simp [h])
        have hxb : x ≠ b := fun h => h1 (by simp [h])
        have hax : a < x := by
          rcases List.mem_cons.1 hc with rfl | hc
          · exact hcx
          · have := ha c hc; omega
        by_cases hlt : x < b
        · exact Or.inl ⟨hax, hlt⟩
        · refine Or.inr ⟨fun h => h1 (List.mem_cons_of_mem _ h), ⟨b, by simp, by omega⟩, ?_⟩
          rcases List.mem_cons.1 hd with rfl | hd
          · omega
          · exact ⟨d, hd, hxd⟩

theorem missingValues_nodup {l : List Nat} (hl : l.Pairwise (· ≤ ·)) : (missingValues l).Nodup := by
  induction l with
  | nil => simp [missingValues]
  | cons a t ih =>
    cases t with
    | nil => simp [missingValues]
    | cons b t =>
      rw [List.pairwise_cons] at hl
      obtain ⟨ha, ht⟩ := hl
      rw [missingValues, List.nodup_append]
      refine ⟨?_, ih ht, ?_⟩
      · split
        · exact List.nodup_range'
        · simp
      · intro x hx y hy
        rw [mem_missingValues ht] at hy
        obtain ⟨-, ⟨c, hc, hcy⟩, -⟩ := hy
        have hbc : b ≤ c := by
          rcases List.mem_cons.1 hc with rfl | hc
          · exact le_rfl
          · exact (List.pairwise_cons.1 ht).1 c hc
        split at hx
        · rw [List.mem_range'_1] at hx; omega
        · simp at hx

theorem head_le {l : List Nat} (hl : l.Pairwise (· ≤ ·)) {a : Nat} (h : l.head? = some a) :
    a ∈ l ∧ ∀ x ∈ l, a ≤ x := by
  obtain _ | ⟨b, t⟩ := l
  · simp at h
  · simp only [List.head?_cons, Option.some.injEq] at h
    subst h
    rw [List.pairwise_cons] at hl
    refine ⟨by simp, fun x hx => ?_⟩
    rcases List.mem_cons.1 hx with rfl | hx
    · exact le_rfl
    · exact hl.1 x hx

theorem le_last {l : List Nat} (hl : l.Pairwise (· ≤ ·)) {a : Nat} (h : l.getLast? = some a) :
    a ∈ l ∧ ∀ x ∈ l, x ≤ a := by
  obtain ⟨l', rfl⟩ := List.getLast?_eq_some_iff.1 h
  rw [List.pairwise_append] at hl
  refine ⟨by simp, fun x hx => ?_⟩
  rcases List.mem_append.1 hx with hx | hx
  · exact hl.2.2 x hx a (by simp)
  · simp at hx; omega

/-- What `get_rc_holes` returns. -/
theorem getRcHoles_ok {offs : List FE} {holes : List FE} {lo hi : Nat}
    (h : getRcHoles offs = .ok (holes, lo, hi)) :
    ∃ missing : List Nat, ∃ pad : Nat, pad < 3 ∧ 3 ∣ missing.length + pad ∧
      holes = (missing ++ List.replicate pad hi).map (fun n : Nat => (n : FE)) ∧ missing.Nodup ∧
      (∃ x ∈ offs, x.val % 2 ^ 16 = lo) ∧ (∃ x ∈ offs, x.val % 2 ^ 16 = hi) ∧
      (∀ x ∈ offs, lo ≤ x.val % 2 ^ 16 ∧ x.val % 2 ^ 16 ≤ hi) ∧
      ∀ n, n ∈ missing ↔ lo ≤ n ∧ n ≤ hi ∧ ∀ x ∈ offs, x.val % 2 ^ 16 ≠ n := by
  unfold getRcHoles at h
  simp only at h
  set vals := offs.map fun x => x.val % 2 ^ 16 with hv
  have hpw := sortNat_pairwise vals
  split at h
  next a b ha hb =>
    simp only [Outcome.ok.injEq, Prod.mk.injEq] at h
    obtain ⟨rfl, rfl, rfl⟩ := h
    obtain ⟨h1, h2⟩ := head_le hpw ha
    obtain ⟨h3, h4⟩ := le_last hpw hb
    rw [mem_sortNat, hv, List.mem_map] at h1 h3
    have h2' : ∀ x ∈ offs, a ≤ x.val % 2 ^ 16 := fun x hx =>
      h2 _ (mem_sortNat.2 (List.mem_map.2 ⟨x, hx, rfl⟩))
    have h4' : ∀ x ∈ offs, x.val % 2 ^ 16 ≤ b := fun x hx =>
      h4 _ (mem_sortNat.2 (List.mem_map.2 ⟨x, hx, rfl⟩))
    refine ⟨missingValues (sortNat vals), _, ?_, ?_, rfl, missingValues_nodup hpw, h1, h3,
      fun x hx => ⟨h2' x hx, h4' x hx⟩, ?_⟩
    · omega
    · rw [Nat.add_sub_cancel' (by omega)]; exact Dvd.intro_left _ rfl
    · intro n
      rw [mem_missingValues hpw]
      simp only [mem_sortNat, hv, List.mem_map, not_exists, not_and]
      constructor
      · rintro ⟨hn, ⟨c, ⟨x, hx, rfl⟩, hcn⟩, d, ⟨y, hy, rfl⟩, hnd⟩
        have := h2' x hx; have := h4' y hy
        exact ⟨by omega, by omega, hn⟩
      · rintro ⟨hn1, hn2, hn3⟩
        obtain ⟨x, hx, hxa⟩ := h1
        obtain ⟨y, hy, hyb⟩ := h3
        have := hn3 x hx
        have := hn3 y hy
        exact ⟨hn3, ⟨a, ⟨x, hx, hxa⟩, by omega⟩, b, ⟨y, hy, hyb⟩, by omega⟩
  next => cases h

theorem getRcHoles_exists {offs : List FE} (h : offs ≠ []) :
    ∃ r, getRcHoles offs = .ok r := by
  unfold getRcHoles
  simp only
  have hne : sortNat (offs.map fun x => x.val % 2 ^ 16) ≠ [] := by
    intro hc
    have := (sortNat_perm (offs.map fun x => x.val % 2 ^ 16)).length_eq
    rw [hc] at this
    rw [List.length_nil, List.length_map] at this
    exact h (List.length_eq_zero_iff.1 this.symm)
  obtain ⟨a, t, hat⟩ := List.exists_cons_of_ne_nil hne
  rw [hat]
  simp only [List.head?_cons, List.getLast?_cons]
  exact ⟨_, rfl⟩

/-! ## Memory holes -/

theorem holesBetween_mem {codelen : Nat} {p a : FE} (hp : p.val + 1 ≤ a.val) {x : FE} :
    x ∈ holesBetween codelen (p + 1) a ↔ p.val < x.val ∧ x.val < a.val ∧ codelen < x.val := by
  have hP : a.val < P := ZMod.val_lt a
  have hp1 : (p + 1).val = p.val + 1 := by
    rw [ZMod.val_add, show (1 : FE).val = 1 from by decide, Nat.mod_eq_of_lt (by omega)]
  have hk : ∀ k : Nat, k < a.val - (p + 1).val → (p + 1 + (k : FE)).val = p.val + 1 + k := by
    intro k hk
    rw [ZMod.val_add, hp1, ZMod.val_natCast_of_lt (by omega), Nat.mod_eq_of_lt (by omega)]
  unfold holesBetween
  rw [List.mem_filter, List.mem_map]
  simp only [List.mem_range, decide_eq_true_eq]
  constructor
  · rintro ⟨⟨k, hk', rfl⟩, hc⟩
    rw [hk k hk'] at hc ⊢
    rw [hp1] at hk'
    omega
  · rintro ⟨h1, h2, h3⟩
    refine ⟨⟨x.val - (p.val + 1), by rw [hp1]; omega, ?_⟩, h3⟩
    apply ZMod.val_injective
    rw [hk _ (by rw [hp1]; omega)]; omega

theorem sub_cases {p a : FE} (h : p.val ≤ a.val) :
    (a - p ≠ 1 ∧ a - p ≠ 0) ↔ p.val + 1 < a.val := by
  have hs : (a - p).val = a.val - p.val := ZMod.val_sub h
  have h1 : a - p = 1 ↔ a.val - p.val = 1 := by
    rw [← hs]
    constructor
    · intro h; rw [h]; decide
    · intro h; apply ZMod.val_injective; rw [h]; decide
  have h0 : a - p = 0 ↔ a.val - p.val = 0 := by
    rw [← hs]; exact (ZMod.val_eq_zero _).symm
  rw [Ne, Ne, h1, h0]; omega

theorem mem_memoryHolesFrom {codelen : Nat} (l : List FE) :
    ∀ (p : FE), (p :: l).Pairwise (fun a b => a.val ≤ b.val) → ∀ x : FE,
    (x ∈ memoryHolesFrom codelen p l ↔ codelen < x.val ∧ x ∉ (p :: l) ∧ p.val < x.val ∧
      ∃ b ∈ l, x.val < b.val) := by
  induction l with
  | nil => intro p _ x; simp [memoryHolesFrom]
  | cons a t ih =>
    intro p hp x
    rw [List.pairwise_cons] at hp
    obtain ⟨hpa, ht⟩ := hp
    have hpa' := hpa a (by simp)
    have hat := (List.pairwise_cons.1 ht).1
    have hguard : x ∈ (if a - p ≠ 1 ∧ a - p ≠ 0 ∧ codelen < a.val then
        holesBetween codelen (p + 1) a else []) ↔
        codelen < x.val ∧ p.val < x.val ∧ x.val < a.val := by
      split
      next h =>
        have h1 := (sub_cases hpa').1 ⟨h.1, h.2.1⟩
        rw [holesBetween_mem (by omega)]; tauto
      next h =>
        simp only [List.not_mem_nil, false_iff]
        rintro ⟨h1, h2, h3⟩
        apply h
        obtain ⟨h4, h5⟩ := (sub_cases hpa').2 (by omega)
        exact ⟨h4, h5, by omega⟩
    rw [memoryHolesFrom, List.mem_append, hguard, ih a ht x]
    constructor
    · rintro (⟨h1, h2, h3⟩ | ⟨h1, h2, h3, b, hb, hxb⟩)
      · refine ⟨h1, ?_, h2, a, by simp, h3⟩
        intro hx
        rcases List.mem_cons.1 hx with rfl | hx
        · omega
        · rcases List.mem_cons.1 hx with rfl | hx
          · omega
          · have := hat x hx; omega
      · refine ⟨h1, ?_, by omega, b, List.mem_cons_of_mem _ hb, hxb⟩
        intro hx
        rcases List.mem_cons.1 hx with rfl | hx
        · omega
        · exact h2 hx
    · rintro ⟨h1, h2, h3, b, hb, hxb⟩
      have hxa : x.val ≠ a.val := fun h => h2 (by rw [ZMod.val_injective P h]; simp)
      by_cases hlt : x.val < a.val
      · exact Or.inl ⟨h1, h3, hlt⟩
      · refine Or.inr ⟨h1, fun h => h2 (List.mem_cons_of_mem _ h), by omega, ?_⟩
        rcases List.mem_cons.1 hb with rfl | hb
        · omega
        · exact ⟨b, hb, hxb⟩

theorem mem_getMemoryHoles {codelen : Nat} {addrs holes : List FE}
    (hs : addrs.Pairwise (fun a b => a.val ≤ b.val)) (h : getMemoryHoles addrs codelen = .ok holes)
    (x : FE) : x ∈ holes ↔ codelen < x.val ∧ x ∉ addrs ∧ (∃ a ∈ addrs, a.val < x.val) ∧
      ∃ b ∈ addrs, x.val < b.val := by
  unfold getMemoryHoles at h
  obtain _ | ⟨a, t⟩ := addrs
  · cases h
  · simp only [Outcome.ok.injEq] at h
    subst h
    rw [mem_memoryHolesFrom (a :: t) a (List.pairwise_cons.2 ⟨by
      intro b hb
      rcases List.mem_cons.1 hb with rfl | hb
      · exact le_rfl
      · exact (List.pairwise_cons.1 hs).1 b hb, hs⟩) x]
    have : (∃ c ∈ a :: t, c.val < x.val) ↔ a.val < x.val := by
      constructor
      · rintro ⟨c, hc, hcx⟩
        rcases List.mem_cons.1 hc with rfl | hc
        · exact hcx
        · have := (List.pairwise_cons.1 hs).1 c hc; omega
      · intro h; exact ⟨a, by simp, h⟩
    rw [this]
    simp

end Verif.ExecTrace
