import Verif.Lemmas.Format

/-! Helper lemmas about parts of the bytes of public inputs. -/

namespace Verif

/-- What follows does not change what is read. -/
def Mono {α : Type} (p : Parser α) : Prop := ∀ bs a r, p bs = .ok (a, r) → ∀ x, p (bs ++ x) = .ok (a, r ++ x)

section
variable {α β : Type} {p : Parser α} {f : α → Parser β}

theorem Reads.mono {E : α → Bytes → Prop} (h : Reads p E) : Mono p := by
  intro bs a r hp x
  obtain ⟨b, rfl, he⟩ := (h _ _ _).mp hp
  exact (h _ _ _).mpr ⟨b, by simp, he⟩

theorem Mono.bind (h1 : Mono p) (h2 : ∀ a, Mono (f a)) : Mono (p >>= f) := by
  intro bs c r h x
  obtain ⟨a, r1, ha, hc⟩ := parser_bind_ok.mp h
  exact parser_bind_ok.mpr ⟨a, r1 ++ x, h1 _ _ _ ha x, h2 a _ _ _ hc x⟩

theorem mono_getPrefix (n : Nat) : Mono (getPrefix n) := by
  intro bs a r h x
  unfold getPrefix at h ⊢
  split at h
  · rename_i hl
    cases h
    rw [if_pos (by simp; omega), List.take_append_of_le_length hl]
  · cases h

theorem mono_pure (a : α) : Mono (pure a : Parser α) := by
  intro bs c r h x
  cases h
  rfl

end

theorem mono_inputs : Mono parsePublicInputs :=
  reads_num.mono.bind fun w => (reads_felt w).mono.bind fun _ => (reads_felt w).mono.bind fun _ =>
  (reads_felt w).mono.bind fun _ => (reads_felt w).mono.bind fun _ => (reads_felt w).mono.bind fun _ =>
  reads_bound.mono.bind fun _ => reads_bound.mono.bind fun _ => reads_num.mono.bind fun n =>
  (reads_readMany reads_segment n).mono.bind fun _ => reads_num.mono.bind fun m =>
  (reads_readMany (reads_cell w) m).mono.bind fun _ => (mono_getPrefix 8).bind fun _ => mono_pure _

theorem inputs_rest {bs r : Bytes} {pi : PublicInputs} (h : parsePublicInputs bs = .ok (pi, r)) : 8 ≤ r.length := by
  unfold parsePublicInputs at h
  simp only [parser_bind_ok] at h
  obtain ⟨_, _, -, _, _, -, _, _, -, _, _, -, _, _, -, _, _, -, _, _, -, _, _, -, _, _, -, _, _, -, _, _, -, _, _, -,
    b, r', hg, hp⟩ := h
  cases hp
  unfold getPrefix at hg
  split at hg
  · cases hg
    assumption
  · cases hg

theorem inputs_parse (p : PublicInputs) (hp : p.WF) (h : p.serialize.length < 2 ^ 64) :
    ∃ r, r.length = 8 ∧ parsePublicInputs p.serialize = .ok (p, r) := by
  obtain ⟨pc, ap, fp, pcf, apf, rmin, rmax, segs, mem, ns⟩ := p
  obtain ⟨hs1, hs2, hm, hn⟩ := hp
  simp only at hs1 hs2 hm hn
  have l1 := length_le_flatMap segs serializeSegment (fun a _ => by simp [serializeSegment])
  have l2 := length_le_flatMap mem (fun e => feToBytesBe e.1 ++ feToBytesBe e.2)
    (fun a _ => by simp)
  simp only [PublicInputs.serialize, List.length_append, length_feToBytesBe, length_beBytes] at h
  have e1 := parses_readUsize 32 (by norm_num)
  have e2 := parses_readUsize segs.length (by omega)
  have e3 := parses_readMany segs (fun e he => parses_segment e (hs2 e he).1 (hs2 e he).2)
  have e4 := parses_readUsize mem.length (by omega)
  have e5 := parses_readMany mem (fun e _ => parses_cell e)
  have hlast : (getPrefix 8) (beBytes 8 ns) = .ok (beBytes 8 ns, beBytes 8 ns) := by
    unfold getPrefix
    rw [if_pos (by simp), List.take_of_length_le (by simp)]
  have hb := beNat_beBytes 8 ns (lt_of_lt_of_eq hn (by norm_num))
  refine ⟨beBytes 8 ns, length_beBytes 8 ns, ?_⟩
  simp only [parsePublicInputs, PublicInputs.serialize,
    List.append_assoc, length_feToBytesBe, bind, StateT.bind, pure, StateT.pure, Outcome.bind,
    e1 _, parses_readFelt _ _, parses_optU16 _ _, e2 _, e3 _, e4 _, e5 _, hlast, hb,
    insertAll_of_wf _ hs1, insertAll_of_wf _ hm]

/-- A part of the bytes of public inputs is not read as public inputs. -/
theorem inputs_take (p : PublicInputs) (hp : p.WF) (h : p.serialize.length < 2 ^ 64) {k : Nat}
    (hk : k < p.serialize.length) (q : PublicInputs) : PublicInputs.deserialize (p.serialize.take k) ≠ .ok q := by
  intro hq
  obtain ⟨r, hr⟩ := run'_ok.mp hq
  obtain ⟨r', hr', hfull⟩ := inputs_parse p hp h
  have h1 := mono_inputs _ _ _ hr (p.serialize.drop k)
  rw [List.take_append_drop, hfull] at h1
  simp only [Outcome.ok.injEq, Prod.mk.injEq] at h1
  have h2 := inputs_rest hr
  have h3 := congrArg List.length h1.2
  rw [List.length_append, List.length_drop] at h3
  omega

/-- Where cutting the bytes of public inputs makes decoding panic. -/
theorem inputs_take_panic (p : PublicInputs) {lo hi : UInt16} (hlo : p.rangeCheckMin = some lo)
    (hhi : p.rangeCheckMax = some hi) (k : Nat) :
    PublicInputs.deserialize (p.serialize.take k) = .panic ↔ k = 169 ∨ k = 170 ∨ k = 172 ∨ k = 173 := by
  obtain ⟨tail, rest, hs, ht, hr⟩ : ∃ head rest, p.serialize = beBytes 8 32 ++ (head ++ (1 :: beBytes 2 lo.toNat ++
      (1 :: beBytes 2 hi.toNat ++ rest))) ∧ head.length = 160 ∧ 8 ≤ rest.length := by
    refine ⟨feToBytesBe p.pcInit ++ (feToBytesBe p.apInit ++ (feToBytesBe p.fpInit ++ (feToBytesBe p.pcFinal ++
      feToBytesBe p.apFinal))), beBytes 8 p.memorySegments.length ++ (p.memorySegments.flatMap serializeSegment ++
      (beBytes 8 p.publicMemory.length ++ (p.publicMemory.flatMap (fun e => feToBytesBe e.1 ++ feToBytesBe e.2) ++
      beBytes 8 p.numSteps))), ?_, by simp, by simp⟩
    unfold PublicInputs.serialize
    rw [hlo, hhi]
    simp [serializeOptU16]
  rw [publicInputs_panic_iff, hs]
  generalize hbody : (1 :: beBytes 2 lo.toNat ++ (1 :: beBytes 2 hi.toNat ++ rest)) = body
  have hbl : body.length = 6 + rest.length := by rw [← hbody]; simp +arith
  by_cases h8 : 8 ≤ k
  swap
  · constructor
    · rintro ⟨h, -⟩
      rw [List.length_take] at h
      omega
    · omega
  have h32 : beNat (((beBytes 8 32 ++ (tail ++ body)).take k).take 8) = 32 := by
    rw [List.take_take, min_eq_left h8, List.take_left' (length_beBytes 8 32)]
    exact beNat_beBytes 8 32 (by norm_num)
  simp only [h32]
  by_cases h168 : 168 ≤ k
  swap
  · constructor
    · rintro ⟨-, -, h, -⟩
      rw [List.length_take] at h
      omega
    · omega
  have hdrop : ((beBytes 8 32 ++ (tail ++ body)).take k).drop (8 + 5 * 32) = body.take (k - 168) := by
    rw [List.drop_take]
    have : (beBytes 8 32 ++ (tail ++ body)).drop (8 + 5 * 32) = body := by
      rw [← List.append_assoc]
      exact List.drop_left' (by simp [ht])
    rw [this]
  rw [hdrop]
  have hlen : 8 + 5 * 32 ≤ ((beBytes 8 32 ++ (tail ++ body)).take k).length := by
    rw [List.length_take]; simp [ht]; omega
  have hiff : (TruncatedBound (body.take (k - 168)) = true ∨
      ∃ r, afterBound (body.take (k - 168)) = some r ∧ TruncatedBound r = true) ↔
      k = 169 ∨ k = 170 ∨ k = 172 ∨ k = 173 := by
    obtain ⟨a, b, hab⟩ : ∃ a b, beBytes 2 lo.toNat = [a, b] := ⟨_, _, rfl⟩
    obtain ⟨c, d, hcd⟩ : ∃ c d, beBytes 2 hi.toNat = [c, d] := ⟨_, _, rfl⟩
    rw [← hbody, hab, hcd]
    obtain ⟨j, rfl⟩ : ∃ j, k = j + 168 := ⟨k - 168, by omega⟩
    rw [Nat.add_sub_cancel]
    match j with
    | 0 => simp [TruncatedBound, afterBound]
    | 1 => simp [TruncatedBound]
    | 2 => simp [TruncatedBound]
    | 3 => simp [TruncatedBound, afterBound]
    | 4 => simp [TruncatedBound, afterBound]
    | 5 => simp [TruncatedBound, afterBound]
    | j + 6 => simp [TruncatedBound, afterBound]
  rw [hiff]
  constructor
  · rintro ⟨-, -, -, h⟩; exact h
  · intro h
    exact ⟨by omega, le_rfl, hlen, h⟩

end Verif
