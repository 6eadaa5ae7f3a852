import Verif.Spec.Sizes
import Verif.Lemmas.Bytes
import Verif.Spec.PublicInputs

/-! Helper lemmas about the public-input codec. -/

namespace Verif

/-- What `parseOptU16` does on every input. -/
theorem parseOptU16_eq (bs : Bytes) : parseOptU16 bs =
    match bs with
    | [] => .err .invalidAmountOfBytes
    | b :: bs =>
      if b = 0 then .ok (none, bs)
      else if b = 1 then
        match bs with
        | x :: y :: bs => .ok (some (UInt16.ofNat (beNat [x, y])), bs)
        | _ => .panic
      else .err .fieldFromBytes := by
  cases bs with
  | nil => rfl
  | cons b bs =>
    by_cases h0 : b = 0
    · simp [parseOptU16, peekByte, advance, bind, StateT.bind, pure,
        StateT.pure, Outcome.bind, h0]
    · by_cases h1 : b = 1
      · match bs with
        | [] => simp [parseOptU16, peekByte, advance, indexPrefix, bind, StateT.bind,
            Outcome.bind, h1]
        | [x] => simp [parseOptU16, peekByte, advance, indexPrefix, bind, StateT.bind,
            Outcome.bind, h1]
        | x :: y :: bs => simp [parseOptU16, peekByte, advance, indexPrefix, bind, StateT.bind, pure,
            StateT.pure, Outcome.bind, h1]
      · simp [parseOptU16, peekByte, StateT.lift, bind, StateT.bind,
          Outcome.bind, h0, h1]

theorem parses_optU16 (o : Option UInt16) : Parses parseOptU16 (serializeOptU16 o) o := by
  intro rest
  rw [parseOptU16_eq]
  cases o with
  | none => simp [serializeOptU16]
  | some v =>
    have hb := beNat_beBytes 2 v.toNat (by have := v.toNat_lt; norm_num; exact this)
    simp only [beBytes, List.nil_append, List.cons_append] at hb
    simp only [serializeOptU16, beBytes, List.nil_append, List.cons_append, hb, if_true]
    simp

theorem parses_segment (e : MemorySegment × (Nat × Nat)) (h1 : e.2.1 < 2 ^ 64)
    (h2 : e.2.2 < 2 ^ 64) : Parses parseSegment (serializeSegment e) e := by
  obtain ⟨s, a, b⟩ := e
  simp only at h1 h2
  have key : Parses (do let start ← readUsize; let stop ← readUsize; return (s, (start, stop)))
      (beBytes 8 a ++ beBytes 8 b) (s, (a, b)) :=
    (parses_readUsize _ h1).bind (Parses.map _ (parses_readUsize _ h2))
  intro rest
  have hk := key rest
  cases s <;>
    simpa [parseSegment, serializeSegment, peekByte, advance, StateT.lift, bind, StateT.bind, pure,
      StateT.pure, Outcome.bind] using hk

theorem parses_cell (e : FE × FE) :
    Parses (parseCell 32) (feToBytesBe e.1 ++ feToBytesBe e.2) e :=
  (parses_readFelt _).bind (Parses.map _ (parses_readFelt _))

theorem insertAll_of_wf {K V : Type} [DecidableEq K] (l : HMap K V) (h : l.WF) :
    insertAll l = l := by
  have := HMap.foldl_insert_append l [] (by simpa using h)
  simpa [insertAll] using this

theorem publicInputs_roundtrip (p : PublicInputs) (hp : p.WF) (h : p.serialize.length < 2 ^ 64)
    (rest : Bytes) : PublicInputs.deserialize (p.serialize ++ rest) = .ok p := by
  obtain ⟨pc, ap, fp, pcf, apf, rmin, rmax, segs, mem, ns⟩ := p
  obtain ⟨hs1, hs2, hm, hn⟩ := hp
  simp only at hs1 hs2 hm hn
  have l1 := length_le_flatMap segs serializeSegment (fun a _ => by simp [serializeSegment])
  have l2 := length_le_flatMap mem (fun e => feToBytesBe e.1 ++ feToBytesBe e.2)
    (fun a _ => by simp)
  simp only [PublicInputs.serialize, List.length_append, length_feToBytesBe, length_beBytes] at h
  have e1 := parses_readUsize 32 (by norm_num)
  have e2 := parses_readUsize segs.length (by omega)
  have e3 := parses_readMany segs (fun e he => parses_segment e (hs2 e he).1 (hs2 e he).2)
  have e4 := parses_readUsize mem.length (by omega)
  have e5 := parses_readMany mem (fun e _ => parses_cell e)
  have hlast : (getPrefix 8) (beBytes 8 ns ++ rest) =
      .ok (beBytes 8 ns, beBytes 8 ns ++ rest) := by
    have : (beBytes 8 ns ++ rest).take 8 = beBytes 8 ns := by
      have := List.take_left (l₁ := beBytes 8 ns) (l₂ := rest)
      rwa [length_beBytes] at this
    simp [getPrefix, this]
  have hb := beNat_beBytes 8 ns (lt_of_lt_of_eq hn (by norm_num))
  simp only [PublicInputs.deserialize, Parser.run', parsePublicInputs, PublicInputs.serialize,
    List.append_assoc, length_feToBytesBe, bind, StateT.bind, pure, StateT.pure, Outcome.bind,
    e1 _, parses_readFelt _ _, parses_optU16 _ _, e2 _, e3 _, e4 _, e5 _, hlast, hb,
    insertAll_of_wf _ hs1, insertAll_of_wf _ hm]

/-! ## Where public-input decoding panics -/

theorem noPanic_segment : NoPanic parseSegment := by
  intro bs
  cases bs with
  | nil => simp [parseSegment, peekByte, bind, StateT.bind, Outcome.bind]
  | cons b bs =>
    have key : ∀ s : MemorySegment, NoPanic (do
        let start ← readUsize; let stop ← readUsize; return (s, (start, stop))) :=
      fun s => noPanic_readUsize.bind fun _ => noPanic_readUsize.bind fun _ => NoPanic.pure _
    by_cases h0 : b = 0
    · have := key .rangeCheck bs
      simpa [parseSegment, peekByte, advance, StateT.lift, bind, StateT.bind, pure,
        StateT.pure, Outcome.bind, h0] using this
    · by_cases h1 : b = 1
      · have := key .output bs
        simpa [parseSegment, peekByte, advance, StateT.lift, bind, StateT.bind, pure,
          StateT.pure, Outcome.bind, h1] using this
      · simp [parseSegment, peekByte, StateT.lift, bind, StateT.bind,
          Outcome.bind, h0, h1]

theorem noPanic_cell (n : Nat) : NoPanic (parseCell n) :=
  (noPanic_readFelt _).bind fun _ => (noPanic_readFelt _).bind fun _ => NoPanic.pure _

/-- The tail of the decoder, after the two optional bounds, never panics. -/
theorem noPanic_tail (fl : Nat) (k : List (MemorySegment × (Nat × Nat)) → List (FE × FE) → Bytes →
    PublicInputs) : NoPanic (do
      let nSeg ← readUsize
      let segs ← readMany parseSegment nSeg
      let nMem ← readUsize
      let mem ← readMany (parseCell fl) nMem
      let ns ← getPrefix 8
      return k segs mem ns) :=
  noPanic_readUsize.bind fun _ => (noPanic_readMany noPanic_segment _).bind fun _ =>
  noPanic_readUsize.bind fun _ => (noPanic_readMany (noPanic_cell _) _).bind fun _ =>
  (noPanic_getPrefix _).bind fun _ => NoPanic.pure _

/-- What `readFelt` does on every input. -/
theorem readFelt_eq (n : Nat) (bs : Bytes) : readFelt n bs =
    if n ≤ bs.length then
      if n < 32 then .err .fieldFromBytes
      else .ok (((beNat (bs.take 32) : Nat) : FE), bs.drop n)
    else .err .invalidAmountOfBytes := by
  by_cases h : n ≤ bs.length
  · by_cases h32 : n < 32
    · simp [readFelt, getPrefix, bind, StateT.bind, Outcome.bind, h,
        StateT.lift, Outcome.okOr, feFromBytesBe, h32]
    · have : min 32 n = 32 := by omega
      have h' : 32 ≤ bs.length := by omega
      simp [readFelt, getPrefix, advance, bind, StateT.bind, pure, StateT.pure, Outcome.bind, h,
        StateT.lift, Outcome.okOr, feFromBytesBe, h32, List.take_take, this, h']
  · simp [readFelt, getPrefix, bind, StateT.bind, Outcome.bind, h]

/-- What `readUsize` does on every input. -/
theorem readUsize_eq (bs : Bytes) : readUsize bs =
    if 8 ≤ bs.length then .ok (beNat (bs.take 8), bs.drop 8) else .err .invalidAmountOfBytes := by
  by_cases h : 8 ≤ bs.length <;>
  simp [readUsize, getPrefix, advance, bind, StateT.bind, pure, StateT.pure, Outcome.bind, h]

theorem parseOptU16_panic_iff (bs : Bytes) : parseOptU16 bs = .panic ↔ TruncatedBound bs = true := by
  rw [parseOptU16_eq]
  match bs with
  | [] => simp [TruncatedBound]
  | [b] => by_cases h0 : b = 0 <;> by_cases h1 : b = 1 <;> simp_all [TruncatedBound]
  | [b, x] => by_cases h0 : b = 0 <;> by_cases h1 : b = 1 <;> simp_all [TruncatedBound]
  | b :: x :: y :: bs => by_cases h0 : b = 0 <;> by_cases h1 : b = 1 <;> simp_all [TruncatedBound]

theorem parseOptU16_ok_snd (bs : Bytes) (a : Option UInt16) (r : Bytes) (h : parseOptU16 bs = .ok (a, r)) :
    afterBound bs = some r := by
  rw [parseOptU16_eq] at h
  match bs with
  | [] => simp at h
  | [b] => by_cases h0 : b = 0 <;> by_cases h1 : b = 1 <;> simp_all [afterBound]
  | [b, x] => by_cases h0 : b = 0 <;> by_cases h1 : b = 1 <;> simp_all [afterBound]
  | b :: x :: y :: bs => by_cases h0 : b = 0 <;> by_cases h1 : b = 1 <;> simp_all [afterBound]

theorem parseOptU16_ok_of_after (bs r : Bytes) (h : afterBound bs = some r) :
    ∃ a, parseOptU16 bs = .ok (a, r) := by
  rw [parseOptU16_eq]
  match bs with
  | [] => simp [afterBound] at h
  | [b] => by_cases h0 : b = 0 <;> by_cases h1 : b = 1 <;> simp_all [afterBound]
  | [b, x] => by_cases h0 : b = 0 <;> by_cases h1 : b = 1 <;> simp_all [afterBound]
  | b :: x :: y :: bs => by_cases h0 : b = 0 <;> by_cases h1 : b = 1 <;> simp_all [afterBound]

theorem bounds_panic_iff (fl : Nat) (bs : Bytes)
    (k : Option UInt16 → Option UInt16 → List (MemorySegment × (Nat × Nat)) → List (FE × FE) →
      Bytes → PublicInputs) :
    (do
      let rcMin ← parseOptU16
      let rcMax ← parseOptU16
      let nSeg ← readUsize
      let segs ← readMany parseSegment nSeg
      let nMem ← readUsize
      let mem ← readMany (parseCell fl) nMem
      let ns ← getPrefix 8
      return k rcMin rcMax segs mem ns : Parser PublicInputs) bs = .panic ↔
    (TruncatedBound bs = true ∨ ∃ r, afterBound bs = some r ∧ TruncatedBound r = true) := by
  show (parseOptU16 bs >>= fun r1 => parseOptU16 r1.2 >>= fun r2 => _) = .panic ↔ _
  rw [Outcome.bind_eq_panic, parseOptU16_panic_iff]
  refine or_congr Iff.rfl ?_
  constructor
  · rintro ⟨⟨a, r⟩, h1, h2⟩
    refine ⟨r, parseOptU16_ok_snd _ _ _ h1, ?_⟩
    rcases Outcome.bind_eq_panic.1 h2 with h | ⟨⟨a2, r2⟩, _, h⟩
    · exact (parseOptU16_panic_iff _).1 h
    · exact absurd h (noPanic_tail fl (k a a2) r2)
  · rintro ⟨r, h1, h2⟩
    obtain ⟨a, ha⟩ := parseOptU16_ok_of_after _ _ h1
    exact ⟨(a, r), ha, Outcome.bind_eq_panic.2 (Or.inl ((parseOptU16_panic_iff _).2 h2))⟩

/-- Exact panic condition of `PublicInputs::deserialize`. -/
theorem publicInputs_panic_iff (bs : Bytes) :
    PublicInputs.deserialize bs = .panic ↔
      8 ≤ bs.length ∧ 32 ≤ beNat (bs.take 8) ∧ 8 + 5 * beNat (bs.take 8) ≤ bs.length ∧
      (TruncatedBound (bs.drop (8 + 5 * beNat (bs.take 8))) = true ∨
        ∃ r, afterBound (bs.drop (8 + 5 * beNat (bs.take 8))) = some r ∧ TruncatedBound r = true) := by
  have h0 : PublicInputs.deserialize bs = .panic ↔ parsePublicInputs bs = .panic := by
    show (parsePublicInputs bs >>= fun r => pure r.1) = .panic ↔ _
    rw [Outcome.bind_eq_panic]; simp
  rw [h0]
  by_cases h8 : 8 ≤ bs.length
  swap
  · constructor
    · intro h
      exfalso
      change (readUsize bs >>= _) = Outcome.panic at h
      rw [readUsize_eq, if_neg h8] at h
      cases h
    · rintro ⟨h, _⟩; exact absurd h h8
  generalize hL : beNat (bs.take 8) = L
  have hstep : ∀ (β : Type) (f : FE → Parser β) (b : Bytes), (readFelt L >>= f) b = .panic ↔
      32 ≤ L ∧ L ≤ b.length ∧ f ((beNat (b.take 32) : Nat) : FE) (b.drop L) = .panic := by
    intro β f b
    show (readFelt L b >>= fun r => f r.1 r.2) = .panic ↔ _
    rw [readFelt_eq]
    by_cases h1 : L ≤ b.length
    · by_cases h2 : L < 32
      · simp [h1, h2]
      · simp [h1, h2]; omega
    · simp [h1]
  have e1 : parsePublicInputs bs = (do
      let pcInit ← readFelt L
      let apInit ← readFelt L
      let fpInit ← readFelt L
      let pcFinal ← readFelt L
      let apFinal ← readFelt L
      let rcMin ← parseOptU16
      let rcMax ← parseOptU16
      let nSeg ← readUsize
      let segs ← readMany parseSegment nSeg
      let nMem ← readUsize
      let mem ← readMany (parseCell L) nMem
      let ns ← getPrefix 8
      return { pcInit, apInit, fpInit, pcFinal, apFinal
               rangeCheckMin := rcMin
               rangeCheckMax := rcMax
               memorySegments := insertAll segs
               publicMemory := insertAll mem
               numSteps := beNat ns } : Parser PublicInputs) (bs.drop 8) := by
    show (readUsize bs >>= _) = _
    rw [readUsize_eq, if_pos h8, hL]
    rfl
  rw [e1]
  simp only [hstep, List.drop_drop, List.length_drop]
  rw [bounds_panic_iff L _ (fun rcMin rcMax segs mem ns =>
    { pcInit := _, apInit := _, fpInit := _, pcFinal := _, apFinal := _
      rangeCheckMin := rcMin
      rangeCheckMax := rcMax
      memorySegments := insertAll segs
      publicMemory := insertAll mem
      numSteps := beNat ns })]
  have ea : 8 + L + L + L + L + L = 8 + 5 * L := by ring
  rw [ea]
  constructor
  · rintro ⟨a1, a2, _, a3, _, a4, _, a5, _, a6, a7⟩
    exact ⟨h8, a1, by omega, a7⟩
  · rintro ⟨_, a1, a2, a3⟩
    exact ⟨a1, by omega, a1, by omega, a1, by omega, a1, by omega, a1, by omega, a3⟩

end Verif
