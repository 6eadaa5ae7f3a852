import Verif.Model.CairoImport
import Verif.Spec.CairoImport
import Verif.Lemmas.Bytes

/-! Helper lemmas about the binary trace and memory formats. -/

namespace Verif
open Spec

theorem mapOutcome_ok {ε α β : Type} {f : α → Outcome ε β} {g : α → β} (l : List α)
    (h : ∀ a ∈ l, f a = .ok (g a)) : mapOutcome f l = .ok (l.map g) := by
  induction l with
  | nil => rfl
  | cons a as ih =>
    simp only [mapOutcome, h a (by simp), ih fun x hx => h x (by simp [hx]), Outcome.bind_ok,
      Outcome.pure_eq, List.map_cons]

theorem slice_ok {ε : Type} (bs : Bytes) (a b k : Nat) (hk : b = a + k) (hb : b ≤ bs.length) :
    (slice bs a b : Outcome ε Bytes) = .ok (window bs a k) := by
  subst hk
  simp [slice, window, hb]

theorem length_window (bs : Bytes) (a k : Nat) (h : a + k ≤ bs.length) :
    (window bs a k).length = k := by
  simp [window]; omega

theorem sliceU64Le_ok {ε : Type} (bs : Bytes) (a b : Nat) (hk : b = a + 8) (hb : b ≤ bs.length) :
    (sliceU64Le bs a b : Outcome ε Nat) = .ok (leNat (window bs a 8)) := by
  simp [sliceU64Le, slice_ok bs a b 8 hk hb, length_window bs a 8 (by omega)]

theorem registersFromBytesLe_ok (bs : Bytes) (h : bs.length % 24 = 0) :
    registersFromBytesLe bs = .ok ((List.range (bs.length / 24)).map fun i =>
      { ap := leNat (window bs (24 * i) 8)
        fp := leNat (window bs (24 * i + 8) 8)
        pc := leNat (window bs (24 * i + 16) 8) }) := by
  simp only [registersFromBytesLe, h, ne_eq, not_true, if_false]
  refine mapOutcome_ok _ fun i hi => ?_
  rw [List.mem_range] at hi
  have h1 : 24 * i + 24 ≤ bs.length := by omega
  simp only [registerRow, Nat.mul_comm i 24]
  simp only [sliceU64Le_ok bs (24 * i) (24 * i + 8) (by omega) (by omega),
    sliceU64Le_ok bs (24 * i + 8) (24 * i + 16) (by omega) (by omega),
    sliceU64Le_ok bs (24 * i + 16) (24 * i + 24) (by omega) (by omega), Outcome.bind_ok,
    Outcome.pure_eq]

theorem memoryRows_ok (bs : Bytes) :
    mapOutcome (memoryRow bs) (List.range (bs.length / 40)) = .ok (memoryRows bs) := by
  refine mapOutcome_ok _ fun i hi => ?_
  rw [List.mem_range] at hi
  have h1 : 40 * i + 40 ≤ bs.length := by omega
  have h2 := length_window bs (40 * i + 8) 32 (by omega)
  have h3 : (window bs (40 * i + 8) 32).take 32 = window bs (40 * i + 8) 32 :=
    List.take_of_length_le (by omega)
  simp only [memoryRow, Nat.mul_comm i 40]
  simp only [sliceU64Le_ok bs (40 * i) (40 * i + 8) (by omega) (by omega),
    slice_ok bs (40 * i + 8) (40 * i + 40) 32 (by omega) (by omega), Outcome.bind_ok,
    feFromBytesLe, h2, lt_irrefl, if_false, h3, Outcome.ofOptionUnwrap, Outcome.pure_eq]

/-- A map filled by insertions gives each key its last value. -/
theorem get?_foldl_insert (rows : List (Nat × FE)) (m : HMap Nat FE) (addr : Nat) :
    (rows.foldl (fun m e => m.insert e.1 e.2) m).get? addr =
      (lastValue rows addr).or (m.get? addr) := by
  induction rows generalizing m with
  | nil => simp [lastValue]
  | cons r rows ih =>
    rw [List.foldl_cons, ih, HMap.get?_insert]
    simp only [lastValue, List.reverse_cons, List.find?_append]
    cases hf : rows.reverse.find? (fun r => decide (r.1 = addr)) with
    | some x => simp
    | none =>
      by_cases h : r.1 = addr <;> simp [h]

theorem window_zero_append (a b : Bytes) (k : Nat) (h : a.length = k) : window (a ++ b) 0 k = a := by
  subst h; simp [window]

theorem window_append_right (a b : Bytes) (p q k : Nat) (hq : q = a.length + p) :
    window (a ++ b) q k = window b p k := by
  subst hq
  simp [window, List.drop_append, List.drop_of_length_le (Nat.le_add_right a.length p)]

/-- Decoding row by row commutes with appending a row in front. -/
theorem registers_cons (r : RegistersState) (h1 : r.ap < 2 ^ 64) (h2 : r.fp < 2 ^ 64)
    (h3 : r.pc < 2 ^ 64) (bs : Bytes) (hl : bs.length % 24 = 0) (rows : List RegistersState)
    (h : registersFromBytesLe bs = .ok rows) :
    registersFromBytesLe (leBytes 8 r.ap ++ leBytes 8 r.fp ++ leBytes 8 r.pc ++ bs)
      = .ok (r :: rows) := by
  have hlen : (leBytes 8 r.ap ++ leBytes 8 r.fp ++ leBytes 8 r.pc ++ bs).length = 24 + bs.length := by
    simp; omega
  rw [registersFromBytesLe_ok _ (by omega)]
  rw [registersFromBytesLe_ok _ hl, Outcome.ok.injEq] at h
  subst h
  have hd : (24 + bs.length) / 24 = bs.length / 24 + 1 := by omega
  rw [hlen, hd, List.range_succ_eq_map, List.map_cons, List.map_map, Outcome.ok.injEq]
  have n1 : (2:Nat) ^ 64 = 256 ^ 8 := by norm_num
  rw [n1] at h1 h2 h3
  have w1 : window (leBytes 8 r.ap ++ leBytes 8 r.fp ++ leBytes 8 r.pc ++ bs) 0 8 = leBytes 8 r.ap := by
    simp only [List.append_assoc]; exact window_zero_append _ _ _ (by simp)
  have w2 : window (leBytes 8 r.ap ++ leBytes 8 r.fp ++ leBytes 8 r.pc ++ bs) 8 8 = leBytes 8 r.fp := by
    simp only [List.append_assoc]
    rw [window_append_right _ _ 0 8 8 (by simp)]; exact window_zero_append _ _ _ (by simp)
  have w3 : window (leBytes 8 r.ap ++ leBytes 8 r.fp ++ leBytes 8 r.pc ++ bs) 16 8 = leBytes 8 r.pc := by
    rw [List.append_assoc (leBytes 8 r.ap ++ leBytes 8 r.fp)]
    rw [window_append_right _ _ 0 16 8 (by simp)]; exact window_zero_append _ _ _ (by simp)
  refine List.cons_eq_cons.2 ⟨?_, ?_⟩
  · simp only [Nat.mul_zero, Nat.zero_add, w1, w2, w3, leNat_leBytes _ _ h1, leNat_leBytes _ _ h2,
      leNat_leBytes _ _ h3]
  · refine List.map_congr_left fun i _ => ?_
    simp only [Function.comp]
    have e1 := window_append_right (leBytes 8 r.ap ++ leBytes 8 r.fp ++ leBytes 8 r.pc) bs (24 * i)
      (24 * (i + 1)) 8 (by simp; omega)
    have e2 := window_append_right (leBytes 8 r.ap ++ leBytes 8 r.fp ++ leBytes 8 r.pc) bs (24 * i + 8)
      (24 * (i + 1) + 8) 8 (by simp; omega)
    have e3 := window_append_right (leBytes 8 r.ap ++ leBytes 8 r.fp ++ leBytes 8 r.pc) bs (24 * i + 16)
      (24 * (i + 1) + 16) 8 (by simp; omega)
    simp only [Nat.succ_eq_add_one, e1, e2, e3]

theorem length_writeEncodedTrace (rows : List RegistersState) :
    (writeEncodedTrace rows).length = 24 * rows.length := by
  induction rows with
  | nil => rfl
  | cons r rows ih =>
    simp only [writeEncodedTrace, List.flatMap_cons, List.length_append, length_leBytes,
      List.length_cons] at *
    omega

theorem registers_roundtrip (rows : List RegistersState)
    (h : ∀ r ∈ rows, r.ap < 2 ^ 64 ∧ r.fp < 2 ^ 64 ∧ r.pc < 2 ^ 64) :
    registersFromBytesLe (writeEncodedTrace rows) = .ok rows := by
  induction rows with
  | nil => rfl
  | cons r rows ih =>
    obtain ⟨h1, h2, h3⟩ := h r (by simp)
    exact registers_cons r h1 h2 h3 (writeEncodedTrace rows)
      (by rw [length_writeEncodedTrace]; omega) rows (ih fun x hx => h x (by simp [hx]))

theorem length_writeEncodedMemoryFrom (i : Nat) (cells : List (Option FE)) :
    (writeEncodedMemoryFrom i cells).length % 40 = 0 := by
  induction cells generalizing i with
  | nil => rfl
  | cons c cells ih =>
    cases c with
    | none => exact ih _
    | some v =>
      have := ih (i + 1)
      simp only [writeEncodedMemoryFrom, List.length_append, length_leBytes, length_feToBytesLe]
      omega

theorem memoryRows_cons (a : Nat) (v : FE) (ha : a < 2 ^ 64) (bs : Bytes) :
    memoryRows (leBytes 8 a ++ feToBytesLe v ++ bs) = (a, v) :: memoryRows bs := by
  have hlen : (leBytes 8 a ++ feToBytesLe v ++ bs).length = 40 + bs.length := by
    simp; omega
  have hd : (40 + bs.length) / 40 = bs.length / 40 + 1 := by omega
  have n1 : (2:Nat) ^ 64 = 256 ^ 8 := by norm_num
  rw [n1] at ha
  have w1 : window (leBytes 8 a ++ feToBytesLe v ++ bs) 0 8 = leBytes 8 a := by
    simp only [List.append_assoc]; exact window_zero_append _ _ _ (by simp)
  have w2 : window (leBytes 8 a ++ feToBytesLe v ++ bs) 8 32 = feToBytesLe v := by
    simp only [List.append_assoc]
    rw [window_append_right _ _ 0 8 32 (by simp)]; exact window_zero_append _ _ _ (by simp)
  rw [memoryRows, memoryRows, hlen, hd, List.range_succ_eq_map, List.map_cons, List.map_map]
  refine List.cons_eq_cons.2 ⟨?_, ?_⟩
  · simp only [Nat.mul_zero, Nat.zero_add, w1, w2, leNat_leBytes _ _ ha]
    rw [feToBytesLe, leNat_leBytes _ _ (fe_val_lt v), ZMod.natCast_zmod_val]
  · refine List.map_congr_left fun i _ => ?_
    have e1 := window_append_right (leBytes 8 a ++ feToBytesLe v) bs (40 * i)
      (40 * (i + 1)) 8 (by simp; omega)
    have e2 := window_append_right (leBytes 8 a ++ feToBytesLe v) bs (40 * i + 8)
      (40 * (i + 1) + 8) 32 (by simp; omega)
    simp only [Function.comp, Nat.succ_eq_add_one, e1, e2]

theorem lastValue_cons (r : Nat × FE) (rows : List (Nat × FE)) (addr : Nat) :
    lastValue (r :: rows) addr =
      (lastValue rows addr).or (if r.1 = addr then some r.2 else none) := by
  simp only [lastValue, List.reverse_cons, List.find?_append]
  cases hf : rows.reverse.find? (fun r => decide (r.1 = addr)) with
  | some x => simp
  | none => by_cases h : r.1 = addr <;> simp [h]

theorem lastValue_writeEncodedMemoryFrom (i : Nat) (cells : List (Option FE))
    (h : i + cells.length ≤ 2 ^ 64) (addr : Nat) :
    lastValue (memoryRows (writeEncodedMemoryFrom i cells)) addr =
      if addr < i then none else (cells[addr - i]?).join := by
  induction cells generalizing i with
  | nil => simp [writeEncodedMemoryFrom, memoryRows, lastValue]
  | cons c cells ih =>
    simp only [List.length_cons] at h
    have key := ih (i + 1) (by omega)
    cases c with
    | none =>
      simp only [writeEncodedMemoryFrom, key]
      rcases Nat.lt_trichotomy addr i with h1 | h1 | h1
      · simp [h1, Nat.lt_succ_of_lt h1]
      · subst h1; simp
      · have : ¬ addr < i + 1 := by omega
        have h2 : ¬ addr < i := by omega
        have h3 : addr - i = (addr - (i + 1)) + 1 := by omega
        simp [this, h2, h3]
    | some v =>
      simp only [writeEncodedMemoryFrom, memoryRows_cons i v (by omega), lastValue_cons, key]
      rcases Nat.lt_trichotomy addr i with h1 | h1 | h1
      · simp [h1, Nat.lt_succ_of_lt h1]; omega
      · subst h1; simp
      · have : ¬ addr < i + 1 := by omega
        have h2 : ¬ addr < i := by omega
        have h3 : addr - i = (addr - (i + 1)) + 1 := by omega
        have h4 : ¬ i = addr := by omega
        simp [this, h2, h3, h4]

end Verif
