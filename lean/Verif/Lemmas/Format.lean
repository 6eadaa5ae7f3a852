import Verif.Spec.Format
import Verif.Lemmas.PublicInputs

/-! Helper lemmas about what the decoders read, both ways. -/

namespace Verif
open Spec.Format

/-- The decoder reads `a` from exactly the strings that begin with one of the forms of `a`, and leaves the rest. -/
def Reads {α : Type} (p : Parser α) (E : α → Bytes → Prop) : Prop :=
  ∀ bs a rest, p bs = .ok (a, rest) ↔ ∃ b, bs = b ++ rest ∧ E a b

section
variable {α β : Type} {p : Parser α} {E : α → Bytes → Prop} {f : α → Parser β} {bs rest : Bytes} {c : β}

theorem parser_bind_ok : (p >>= f) bs = .ok (c, rest) ↔ ∃ a r, p bs = .ok (a, r) ∧ f a r = .ok (c, rest) := by
  show Outcome.bind (p bs) _ = _ ↔ _
  cases h : p bs with
  | ok x =>
    obtain ⟨a, r⟩ := x
    simp only [Outcome.bind, Outcome.ok.injEq, Prod.mk.injEq]
    exact ⟨fun h => ⟨a, r, ⟨rfl, rfl⟩, h⟩, by rintro ⟨_, _, ⟨rfl, rfl⟩, h⟩; exact h⟩
  | err e => simp [Outcome.bind]
  | panic => simp [Outcome.bind]

theorem run'_ok : p.run' bs = .ok c' ↔ ∃ r, p bs = .ok (c', r) := by
  unfold Parser.run'
  show Outcome.bind (p bs) _ = _ ↔ _
  cases h : p bs with
  | ok x => obtain ⟨a, r⟩ := x; simp [Outcome.bind, pure]
  | err e => simp [Outcome.bind]
  | panic => simp [Outcome.bind]

theorem Reads.bind (h : Reads p E) : (p >>= f) bs = .ok (c, rest) ↔
    ∃ a b r, bs = b ++ r ∧ E a b ∧ f a r = .ok (c, rest) := by
  rw [parser_bind_ok]
  constructor
  · rintro ⟨a, r, h1, h2⟩
    obtain ⟨b, hb, he⟩ := (h _ _ _).mp h1
    exact ⟨a, b, r, hb, he, h2⟩
  · rintro ⟨a, b, r, hb, he, h2⟩
    exact ⟨a, r, (h _ _ _).mpr ⟨b, hb, he⟩, h2⟩

theorem Reads.run (h : Reads p E) : (p >>= f).run' bs = .ok c ↔
    ∃ a b r, bs = b ++ r ∧ E a b ∧ (f a).run' r = .ok c := by
  rw [run'_ok]
  simp only [h.bind, run'_ok]
  constructor
  · rintro ⟨r', a, b, r, h1, h2, h3⟩
    exact ⟨a, b, r, h1, h2, r', h3⟩
  · rintro ⟨a, b, r, h1, h2, r', h3⟩
    exact ⟨r', a, b, r, h1, h2, h3⟩

theorem run'_pure {a c' : α} : (pure a : Parser α).run' bs = .ok c' ↔ a = c' := by
  show Outcome.ok a = _ ↔ _
  simp

theorem take_drop_iff {n : Nat} {bs rest : Bytes} {Q : Bytes → Prop} :
    (n ≤ bs.length ∧ Q (bs.take n) ∧ bs.drop n = rest) ↔ ∃ b, bs = b ++ rest ∧ b.length = n ∧ Q b := by
  constructor
  · rintro ⟨h1, h2, rfl⟩
    exact ⟨_, (List.take_append_drop n bs).symm, by simp [h1], h2⟩
  · rintro ⟨b, rfl, rfl, h⟩
    exact ⟨by simp, by simpa using h, by simp⟩

theorem reads_num : Reads readUsize Num := by
  intro bs a rest
  rw [readUsize_eq]
  have := @take_drop_iff 8 bs rest (fun b => beNat b = a)
  unfold Num
  rw [← this]
  split <;> simp_all

theorem reads_felt (w : Nat) : Reads (readFelt w) (Felt w) := by
  intro bs a rest
  rw [readFelt_eq]
  have := @take_drop_iff w bs rest (fun b => 32 ≤ w ∧ ((beNat (b.take 32) : Nat) : FE) = a)
  unfold Felt
  rw [← this]
  by_cases h : w ≤ bs.length
  · by_cases h32 : w < 32
    · have : ¬ 32 ≤ w := by omega
      simp [h, h32]
    · have h32' : 32 ≤ w := by omega
      simp [h, h32, h32', List.take_take]
  · simp [h]

theorem reads_digest : Reads readCommitment Digest := by
  intro bs a rest
  constructor
  · intro h
    unfold readCommitment getPrefix at h
    by_cases hl : 32 ≤ bs.length
    · simp only [bind, StateT.bind, hl, if_true, Outcome.bind, List.length_take, min_eq_left hl, dite_true,
        StateT.lift, advance, pure, StateT.pure, Outcome.ok.injEq, Prod.mk.injEq] at h
      obtain ⟨rfl, rfl⟩ := h
      exact ⟨_, (List.take_append_drop 32 bs).symm, rfl⟩
    · simp [bind, StateT.bind, hl, Outcome.bind] at h
  · rintro ⟨b, rfl, hb⟩
    cases hb
    exact parses_readCommitment a rest

theorem reads_readMany (h : Reads p E) (n : Nat) :
    Reads (readMany p n) fun l bs => l.length = n ∧ Parts (l.map E) bs := by
  induction n with
  | zero =>
    intro bs a rest
    show Outcome.ok ([], bs) = _ ↔ _
    simp only [Outcome.ok.injEq, Prod.mk.injEq, List.length_eq_zero_iff]
    constructor
    · rintro ⟨rfl, rfl⟩; exact ⟨[], rfl, rfl, rfl⟩
    · rintro ⟨b, rfl, rfl, h⟩
      cases h
      exact ⟨rfl, rfl⟩
  | succ n ih =>
    intro bs a rest
    unfold readMany
    rw [h.bind]
    simp only [ih.bind]
    constructor
    · rintro ⟨x, b, r, rfl, hx, xs, b', r', rfl, ⟨hl, hxs⟩, hp⟩
      cases hp
      exact ⟨b ++ b', by simp, by simp [hl], b, b', rfl, hx, hxs⟩
    · rintro ⟨b, rfl, hl, hp⟩
      cases a with
      | nil => simp at hl
      | cons x xs =>
        obtain ⟨b1, b2, rfl, hx, hxs⟩ := hp
        exact ⟨x, b1, b2 ++ rest, by simp, hx, xs, b2, rest, rfl, ⟨by simpa using hl, hxs⟩, rfl⟩

/-- A number and that many values. -/
def counted {α : Type} (p : Parser α) : Parser (List α) := do
  let n ← readUsize
  readMany p n

theorem reads_counted (h : Reads p E) : Reads (counted p) (Many E) := by
  intro bs a rest
  unfold counted
  rw [reads_num.bind]
  constructor
  · rintro ⟨n, b, r, rfl, hn, hm⟩
    obtain ⟨b', rfl, rfl, hp⟩ := (reads_readMany h n _ _ _).mp hm
    exact ⟨b ++ b', by simp, b, b', rfl, hn, b', [], by simp, hp, rfl⟩
  · rintro ⟨b, rfl, b1, b2, rfl, hn, b3, b4, rfl, hp, rfl⟩
    exact ⟨_, b1, b3 ++ rest, by simp, hn, (reads_readMany h _ _ _ _).mpr ⟨b3, rfl, rfl, hp⟩⟩

theorem parser_bind_assoc {γ : Type} (p : Parser α) (f : α → Parser β) (g : β → Parser γ) :
    (p >>= f >>= g) = (p >>= fun a => f a >>= g) := by
  funext bs
  show Outcome.bind (Outcome.bind (p bs) _) _ = Outcome.bind (p bs) _
  cases p bs <;> rfl

theorem counted_bind (g : List α → Parser β) :
    (readUsize >>= fun n => readMany p n >>= g) = (counted p >>= g) :=
  (parser_bind_assoc _ _ _).symm

theorem reads_path : Reads parseMerkleProof Path := by
  intro bs a rest
  unfold parseMerkleProof
  rw [counted_bind, (reads_counted reads_digest).bind]
  constructor
  · rintro ⟨x, b, r, rfl, h, hp⟩
    cases hp
    exact ⟨b, rfl, h⟩
  · rintro ⟨b, rfl, h⟩
    exact ⟨_, b, rest, rfl, h, rfl⟩

theorem reads_sized {de : Bytes → Outcome DeserError α} (h : ∀ bs a, de bs = .ok a ↔ E a bs) :
    Reads (readSized de) fun a => Sized (E a) := by
  intro bs a rest
  unfold readSized
  rw [reads_num.bind]
  constructor
  · rintro ⟨n, b, r, rfl, hn, hm⟩
    by_cases hl : n ≤ r.length
    · cases hd : de (r.take n) with
      | ok x =>
        simp only [bind, StateT.bind, getPrefix, hl, if_true, Outcome.bind, StateT.lift, hd, pure, advance, StateT.pure,
          Outcome.ok.injEq, Prod.mk.injEq] at hm
        obtain ⟨rfl, rfl⟩ := hm
        exact ⟨b ++ r.take n, by simp, r.take n, (h _ _).mp hd, b, r.take n, rfl, by simpa [hl] using hn, r.take n, [],
          by simp, rfl, rfl⟩
      | err e => simp [bind, StateT.bind, getPrefix, hl, Outcome.bind, StateT.lift, hd] at hm
      | panic => simp [bind, StateT.bind, getPrefix, hl, Outcome.bind, StateT.lift, hd] at hm
    · simp [bind, StateT.bind, getPrefix, hl, Outcome.bind] at hm
  · rintro ⟨b, rfl, inner, he, b1, b2, rfl, hn, b3, b4, rfl, rfl, rfl⟩
    refine ⟨b3.length, b1, b3 ++ rest, by simp, hn, ?_⟩
    simp [bind, StateT.bind, getPrefix, Outcome.bind, StateT.lift, (h _ _).mpr he, pure, advance, StateT.pure]

theorem run'_getPrefix {bs : Bytes} {f : Bytes → Parser β} {c : β} {g : Nat → β} (hf : ∀ b, f b = pure (g (beNat b))) :
    (getPrefix 8 >>= f).run' bs = .ok c ↔ ∃ n b r, bs = b ++ r ∧ Num n b ∧ g n = c := by
  have h : (getPrefix 8 >>= f).run' bs = (readUsize >>= fun n => pure (g n)).run' bs := by
    unfold Parser.run'
    by_cases h : 8 ≤ bs.length <;>
    simp [readUsize, getPrefix, advance, bind, StateT.bind, pure, StateT.pure, Outcome.bind, h, hf]
  rw [h, reads_num.run]
  simp only [run'_pure]

theorem readNonce_run {bs : Bytes} {f : Nat → Parser β} {c : β} {g : Nat → β} (hf : ∀ n, f n = pure (g n)) :
    (readNonce >>= f).run' bs = .ok c ↔ ∃ n b r, bs = b ++ r ∧ Num n r ∧ g n = c := by
  unfold Parser.run'
  by_cases h : bs.length < 8
  · simp only [readNonce, bind, StateT.bind, Outcome.bind, h, if_true, reduceCtorEq, false_iff]
    rintro ⟨n, b, r, rfl, ⟨hr, _⟩, _⟩
    simp at h
    omega
  · simp only [readNonce, bind, StateT.bind, Outcome.bind, h, if_false, hf, pure, StateT.pure, Outcome.ok.injEq]
    constructor
    · rintro rfl
      exact ⟨_, _, _, (List.take_append_drop (bs.length - 8) bs).symm, ⟨by simp; omega, rfl⟩, rfl⟩
    · rintro ⟨n, b, r, rfl, ⟨hr, rfl⟩, rfl⟩
      congr 2
      have : (b ++ r).length - 8 = b.length := by simp; omega
      rw [this]
      simp

theorem frame_decodes (bs : Bytes) (a : Frame FE) : Frame.deserialize bs = .ok a ↔ OodFrame a bs := by
  unfold Frame.deserialize parseFrame
  simp only [reads_num.run, (reads_readMany (reads_felt _) _).run]
  constructor
  · rintro ⟨n, b1, r1, rfl, h1, w, b2, r2, rfl, h2, l, b3, r3, rfl, ⟨hl, h3⟩, h⟩
    rw [run'_getPrefix (g := fun n => Frame.mk l n) (fun _ => rfl)] at h
    obtain ⟨k, b4, r4, rfl, h4, rfl⟩ := h
    exact ⟨w, n, hl.symm, b1, _, rfl, h1, b2, _, rfl, h2, b3, _, rfl, h3, b4, _, rfl, h4, r4, [], by simp, trivial, rfl⟩
  · rintro ⟨w, n, hl, b1, r1, rfl, h1, b2, r2, rfl, h2, b3, r3, rfl, h3, b4, r4, rfl, h4, _⟩
    refine ⟨n, b1, _, rfl, h1, w, b2, _, rfl, h2, a.data, b3, _, rfl, ⟨hl.symm, h3⟩, ?_⟩
    rw [run'_getPrefix (g := fun n => Frame.mk a.data n) (fun _ => rfl)]
    exact ⟨a.rowWidth, b4, r4, rfl, h4, rfl⟩

theorem query_decodes (bs : Bytes) (a : FriDecommitment FE) :
    FriDecommitment.deserialize bs = .ok a ↔ Query a bs := by
  unfold FriDecommitment.deserialize parseFriDecommitment
  simp only [counted_bind]
  simp only [reads_num.run, (reads_counted reads_path).run, (reads_counted (reads_felt _)).run, run'_pure]
  constructor
  · rintro ⟨l1, b1, r1, rfl, h1, w, b2, r2, rfl, h2, l3, b3, r3, rfl, h3, l4, b4, r4, rfl, h4, l5, b5, r5, rfl, h5, rfl⟩
    exact ⟨w, b1, _, rfl, h1, b2, _, rfl, h2, b3, _, rfl, h3, b4, _, rfl, h4, b5, _, rfl, h5, r5, [], by simp, trivial, rfl⟩
  · rintro ⟨w, b1, _, rfl, h1, b2, _, rfl, h2, b3, _, rfl, h3, b4, _, rfl, h4, b5, r5, rfl, h5, _⟩
    exact ⟨_, b1, _, rfl, h1, w, b2, _, rfl, h2, _, b3, _, rfl, h3, _, b4, _, rfl, h4, _, b5, r5, rfl, h5, rfl⟩

theorem opening_decodes (bs : Bytes) (a : DeepPolynomialOpenings FE) :
    DeepPolynomialOpenings.deserialize bs = .ok a ↔ Opening a bs := by
  unfold DeepPolynomialOpenings.deserialize parseDeepOpenings
  simp only [counted_bind]
  simp only [reads_num.run, reads_path.run, (reads_felt _).run, (reads_counted reads_path).run,
    (reads_counted (reads_felt _)).run, run'_pure]
  constructor
  · rintro ⟨l1, b1, r1, rfl, h1, w, b2, r2, rfl, h2, l3, b3, r3, rfl, h3, l4, b4, r4, rfl, h4, l5, b5, r5, rfl, h5,
      l6, b6, r6, rfl, h6, rfl⟩
    exact ⟨w, b1, _, rfl, h1, b2, _, rfl, h2, b3, _, rfl, h3, b4, _, rfl, h4, b5, _, rfl, h5, b6, _, rfl, h6,
      r6, [], by simp, trivial, rfl⟩
  · rintro ⟨w, b1, _, rfl, h1, b2, _, rfl, h2, b3, _, rfl, h3, b4, _, rfl, h4, b5, _, rfl, h5, b6, r6, rfl, h6, _⟩
    exact ⟨_, b1, _, rfl, h1, w, b2, _, rfl, h2, _, b3, _, rfl, h3, _, b4, _, rfl, h4, _, b5, _, rfl, h5,
      _, b6, r6, rfl, h6, rfl⟩

theorem proof_decodes (bs : Bytes) (a : StarkProof FE) : StarkProof.deserialize bs = .ok a ↔ Proof a bs := by
  unfold StarkProof.deserialize parseStarkProof
  simp only [counted_bind]
  simp only [reads_num.run, (reads_counted reads_digest).run, (reads_sized frame_decodes).run, reads_digest.run,
    (reads_felt _).run, (reads_counted (reads_sized query_decodes)).run,
    (reads_counted (reads_sized opening_decodes)).run]
  constructor
  · rintro ⟨l1, b1, r1, rfl, h1, l2, b2, r2, rfl, h2, l3, b3, r3, rfl, h3, l4, b4, r4, rfl, h4, w, b5, r5, rfl, h5,
      l6, b6, r6, rfl, h6, l7, b7, r7, rfl, h7, l8, b8, r8, rfl, h8, l9, b9, r9, rfl, h9, l10, b10, r10, rfl, h10,
      l11, b11, r11, rfl, h11, h⟩
    rw [readNonce_run (g := fun n => StarkProof.mk l1 l2 l3 l4 l6 l7 l8 l9 l10 l11 n) (fun _ => rfl)] at h
    obtain ⟨n, b, r, rfl, hn, rfl⟩ := h
    exact ⟨w, b1, _, rfl, h1, b2, _, rfl, h2, b3, _, rfl, h3, b4, _, rfl, h4, b5, _, rfl, h5, b6, _, rfl, h6,
      b7, _, rfl, h7, b8, _, rfl, h8, b9, _, rfl, h9, b10, _, rfl, h10, b11, _, rfl, h11, b, r, rfl, trivial,
      r, [], by simp, hn, rfl⟩
  · rintro ⟨w, b1, _, rfl, h1, b2, _, rfl, h2, b3, _, rfl, h3, b4, _, rfl, h4, b5, _, rfl, h5, b6, _, rfl, h6,
      b7, _, rfl, h7, b8, _, rfl, h8, b9, _, rfl, h9, b10, _, rfl, h10, b11, _, rfl, h11, b, _, rfl, -,
      r, _, rfl, hn, rfl⟩
    refine ⟨_, b1, _, rfl, h1, _, b2, _, rfl, h2, _, b3, _, rfl, h3, _, b4, _, rfl, h4, w, b5, _, rfl, h5,
      _, b6, _, rfl, h6, _, b7, _, rfl, h7, _, b8, _, rfl, h8, _, b9, _, rfl, h9, _, b10, _, rfl, h10,
      _, b11, _, rfl, h11, ?_⟩
    rw [readNonce_run (g := fun n => StarkProof.mk _ _ _ _ _ _ _ _ _ _ n) (fun _ => rfl)]
    exact ⟨_, b, r, by simp, hn, rfl⟩

theorem reads_bound : Reads parseOptU16 Bound := by
  intro bs a rest
  rw [parseOptU16_eq]
  constructor
  · intro h
    match bs with
    | [] => simp at h
    | x :: bs =>
      by_cases h0 : x = 0
      · simp only [h0, if_true, Outcome.ok.injEq, Prod.mk.injEq] at h
        obtain ⟨rfl, rfl⟩ := h
        exact ⟨[0], by simp [h0], rfl⟩
      · by_cases h1 : x = 1
        · subst h1
          match bs with
          | [] => simp at h
          | [_] => simp at h
          | y :: z :: bs =>
            simp only [if_neg h0, if_true, Outcome.ok.injEq, Prod.mk.injEq] at h
            obtain ⟨rfl, rfl⟩ := h
            refine ⟨[1, y, z], rfl, [y, z], rfl, ?_, rfl⟩
            have := beNat_lt [y, z]
            rw [UInt16.toNat_ofNat']
            exact (Nat.mod_eq_of_lt (by simpa using this)).symm
        · simp [h0, h1] at h
  · rintro ⟨b, rfl, hb⟩
    cases a with
    | none => cases hb; simp
    | some v =>
      obtain ⟨b', hl, hn, rfl⟩ := hb
      match b', hl with
      | [y, z], _ => simp [hn]

theorem reads_segment : Reads parseSegment Segment := by
  intro bs a rest
  unfold parseSegment
  rw [parser_bind_ok]
  constructor
  · rintro ⟨x, r, hx, h⟩
    match bs with
    | [] => simp [peekByte] at hx
    | y :: bs =>
      simp only [peekByte, Outcome.ok.injEq, Prod.mk.injEq] at hx
      obtain ⟨rfl, rfl⟩ := hx
      have key : ∀ s : MemorySegment, (do let start ← readUsize; let stop ← readUsize; return (s, (start, stop)) :
          Parser (MemorySegment × (Nat × Nat))) bs = .ok (a, rest) →
          ∃ b, bs = b ++ rest ∧ a.1 = s ∧ Parts [Num a.2.1, Num a.2.2] b := by
        intro s hs
        rw [reads_num.bind] at hs
        simp only [reads_num.bind] at hs
        obtain ⟨n1, b1, r1, rfl, h1, n2, b2, r2, rfl, h2, hp⟩ := hs
        cases hp
        exact ⟨b1 ++ b2, by simp, rfl, b1, b2, rfl, h1, b2, [], by simp, h2, rfl⟩
      by_cases h0 : y = 0
      · subst h0
        obtain ⟨b, rfl, hs, hb⟩ := key .rangeCheck (by
          simpa [StateT.lift, advance, bind, StateT.bind, Outcome.bind, pure, StateT.pure] using h)
        exact ⟨0 :: b, by simp, [0], b, rfl, by rw [hs], hb⟩
      · by_cases h1 : y = 1
        · subst h1
          obtain ⟨b, rfl, hs, hb⟩ := key .output (by
            simpa [StateT.lift, advance, bind, StateT.bind, Outcome.bind, pure, StateT.pure] using h)
          exact ⟨1 :: b, by simp, [1], b, rfl, by rw [hs], hb⟩
        · simp [StateT.lift, bind, StateT.bind, Outcome.bind, h0, h1] at h
  · rintro ⟨b, rfl, k, b', rfl, rfl, b1, b2, rfl, h1, b3, b4, rfl, h2, rfl⟩
    have key : ∀ s : MemorySegment, s = a.1 →
        (do let start ← readUsize; let stop ← readUsize; return (s, (start, stop)) :
          Parser (MemorySegment × (Nat × Nat))) (b1 ++ b3 ++ rest) = .ok (a, rest) := by
      rintro s rfl
      rw [reads_num.bind]
      simp only [reads_num.bind]
      exact ⟨_, b1, b3 ++ rest, by simp, h1, _, b3, rest, rfl, h2, rfl⟩
    obtain ⟨s, u, v⟩ := a
    have := key s rfl
    cases s <;>
    exact ⟨_, _, rfl, by
      simpa [StateT.lift, advance, bind, StateT.bind, Outcome.bind, pure, StateT.pure] using this⟩

theorem reads_cell (w : Nat) : Reads (parseCell w) (Cell w) := by
  intro bs a rest
  unfold parseCell
  rw [(reads_felt w).bind]
  simp only [(reads_felt w).bind]
  constructor
  · rintro ⟨x, b1, r1, rfl, h1, y, b2, r2, rfl, h2, hp⟩
    cases hp
    exact ⟨b1 ++ b2, by simp, b1, b2, rfl, h1, b2, [], by simp, h2, rfl⟩
  · rintro ⟨b, rfl, b1, b2, rfl, h1, b3, b4, rfl, h2, rfl⟩
    exact ⟨_, b1, b3 ++ rest, by simp, h1, _, b3, rest, rfl, h2, rfl⟩

theorem inputs_decodes (bs : Bytes) (a : PublicInputs) : PublicInputs.deserialize bs = .ok a ↔ Inputs a bs := by
  unfold PublicInputs.deserialize parsePublicInputs
  simp only [counted_bind]
  simp only [reads_num.run, (reads_felt _).run, reads_bound.run, (reads_counted reads_segment).run,
    (reads_counted (reads_cell _)).run]
  constructor
  · rintro ⟨w, b1, r1, rfl, h1, l2, b2, r2, rfl, h2, l3, b3, r3, rfl, h3, l4, b4, r4, rfl, h4, l5, b5, r5, rfl, h5,
      l6, b6, r6, rfl, h6, l7, b7, r7, rfl, h7, l8, b8, r8, rfl, h8, l9, b9, r9, rfl, h9, l10, b10, r10, rfl, h10, h⟩
    rw [run'_getPrefix (g := fun n => PublicInputs.mk l2 l3 l4 l5 l6 l7 l8 (insertAll l9) (insertAll l10) n)
      (fun _ => rfl)] at h
    obtain ⟨n, b, r, rfl, hn, rfl⟩ := h
    exact ⟨w, l9, l10, rfl, rfl, b1, _, rfl, h1, b2, _, rfl, h2, b3, _, rfl, h3, b4, _, rfl, h4, b5, _, rfl, h5,
      b6, _, rfl, h6, b7, _, rfl, h7, b8, _, rfl, h8, b9, _, rfl, h9, b10, _, rfl, h10, b, r, rfl, hn,
      r, [], by simp, trivial, rfl⟩
  · rintro ⟨w, l9, l10, hs, hm, b1, _, rfl, h1, b2, _, rfl, h2, b3, _, rfl, h3, b4, _, rfl, h4, b5, _, rfl, h5,
      b6, _, rfl, h6, b7, _, rfl, h7, b8, _, rfl, h8, b9, _, rfl, h9, b10, _, rfl, h10, b, r, rfl, hn, _⟩
    refine ⟨w, b1, _, rfl, h1, _, b2, _, rfl, h2, _, b3, _, rfl, h3, _, b4, _, rfl, h4, _, b5, _, rfl, h5,
      _, b6, _, rfl, h6, _, b7, _, rfl, h7, _, b8, _, rfl, h8, l9, b9, _, rfl, h9, l10, b10, _, rfl, h10, ?_⟩
    rw [run'_getPrefix (g := fun n => PublicInputs.mk _ _ _ _ _ _ _ (insertAll l9) (insertAll l10) n) (fun _ => rfl)]
    exact ⟨_, b, r, rfl, hn, by cases a; simp only at hs hm; subst hs; subst hm; rfl⟩

theorem file_decodes (bs : Bytes) (proof : StarkProof FE) (pi : PublicInputs) :
    readProofFile bs = .ok (proof, pi) ↔ File proof pi bs := by
  constructor
  · intro h
    unfold readProofFile at h
    by_cases h8 : bs.length < 8
    · simp [h8] at h
    · by_cases hl : (bs.drop 8).length < beNat (bs.take 8)
      · simp only [h8, hl, if_true, if_false, reduceCtorEq] at h
      · simp only [h8, hl, if_false] at h
        cases hp : StarkProof.deserialize ((bs.drop 8).take (beNat (bs.take 8))) with
        | panic => simp [hp] at h
        | err e => simp [hp] at h
        | ok p =>
          cases hi : PublicInputs.deserialize ((bs.drop 8).drop (beNat (bs.take 8))) with
          | panic => simp only [hp, hi, reduceCtorEq] at h
          | err e => simp only [hp, hi, reduceCtorEq] at h
          | ok i =>
            simp only [hp, hi, Outcome.ok.injEq, Prod.mk.injEq] at h
            obtain ⟨rfl, rfl⟩ := h
            have hle : beNat (bs.take 8) ≤ (bs.drop 8).length := by omega
            refine ⟨bs.take 8 ++ (bs.drop 8).take (beNat (bs.take 8)), (bs.drop 8).drop (beNat (bs.take 8)), ?_,
              ⟨_, (proof_decodes _ _).mp hp, bs.take 8, _, rfl, ⟨by simp; omega, ?_⟩, _, [], by simp, rfl, rfl⟩,
              _, [], by simp, (inputs_decodes _ _).mp hi, rfl⟩
            · rw [List.append_assoc, List.take_append_drop, List.take_append_drop]
            · rw [List.length_take, min_eq_left hle]
  · rintro ⟨b, r, rfl, ⟨inner, hp, b1, b2, rfl, ⟨hl, hn⟩, b3, b4, rfl, rfl, rfl⟩, b5, b6, rfl, hi, rfl⟩
    have h1 : ((b1 ++ (b3 ++ [])) ++ (b5 ++ [])).take 8 = b1 := by simp [← hl]
    have h2 : ((b1 ++ (b3 ++ [])) ++ (b5 ++ [])).drop 8 = b3 ++ b5 := by simp [← hl]
    unfold readProofFile
    rw [if_neg (by simp; omega)]
    simp only [h1, h2, hn]
    rw [if_neg (by simp)]
    simp only [List.take_left, List.drop_left, (proof_decodes _ _).mpr hp, (inputs_decodes _ _).mpr hi]

theorem parser_bind_panic (h : Reads p E) : (p >>= f) bs = .panic ↔
    p bs = .panic ∨ ∃ a b r, bs = b ++ r ∧ E a b ∧ f a r = .panic := by
  have h1 : (p >>= f) bs = .panic ↔ p bs = .panic ∨ ∃ a r, p bs = .ok (a, r) ∧ f a r = .panic := by
    show Outcome.bind (p bs) _ = _ ↔ _
    cases h : p bs with
    | ok x =>
      obtain ⟨a, r⟩ := x
      simp only [Outcome.bind, Outcome.ok.injEq, Prod.mk.injEq, reduceCtorEq, false_or]
      exact ⟨fun h => ⟨a, r, ⟨rfl, rfl⟩, h⟩, by rintro ⟨_, _, ⟨rfl, rfl⟩, h⟩; exact h⟩
    | err e => simp [Outcome.bind]
    | panic => simp [Outcome.bind]
  rw [h1]
  apply or_congr_right
  constructor
  · rintro ⟨a, r, h2, h3⟩
    obtain ⟨b, hb, he⟩ := (h _ _ _).mp h2
    exact ⟨a, b, r, hb, he, h3⟩
  · rintro ⟨a, b, r, hb, he, h3⟩
    exact ⟨a, r, (h _ _ _).mpr ⟨b, hb, he⟩, h3⟩

theorem parser_bind_panic' (h : Reads p E) (hp : NoPanic p) : (p >>= f) bs = .panic ↔
    ∃ a b r, bs = b ++ r ∧ E a b ∧ f a r = .panic := by
  rw [parser_bind_panic h, or_iff_right (hp bs)]

theorem optU16_panic (bs : Bytes) : parseOptU16 bs = .panic ↔ Cut bs := by
  rw [parseOptU16_panic_iff]
  unfold Cut
  match bs with
  | [] => simp [TruncatedBound]
  | [x] => simp [TruncatedBound]
  | [x, y] => simp [TruncatedBound]
  | x :: y :: z :: bs => simp [TruncatedBound]

theorem inputs_panic (bs : Bytes) : PublicInputs.deserialize bs = .panic ↔ CutInputs bs := by
  have h0 : PublicInputs.deserialize bs = .panic ↔ parsePublicInputs bs = .panic := by
    show (parsePublicInputs bs >>= fun r => pure r.1) = .panic ↔ _
    rw [Outcome.bind_eq_panic]; simp
  rw [h0]
  unfold parsePublicInputs
  simp only [parser_bind_panic' reads_num noPanic_readUsize, parser_bind_panic' (reads_felt _) (noPanic_readFelt _),
    parser_bind_panic reads_bound, optU16_panic, parser_bind_panic' (reads_readMany reads_segment _)
      (noPanic_readMany noPanic_segment _), parser_bind_panic' (reads_readMany (reads_cell _) _)
      (noPanic_readMany (noPanic_cell _) _)]
  constructor
  · rintro ⟨w, b1, r1, rfl, h1, x2, b2, r2, rfl, h2, x3, b3, r3, rfl, h3, x4, b4, r4, rfl, h4, x5, b5, r5, rfl, h5,
      x6, b6, r6, rfl, h6, h | ⟨v, b7, r7, rfl, h7, h | h⟩⟩
    · exact ⟨w, x2, x3, x4, x5, x6, Or.inl ⟨b1, _, rfl, h1, b2, _, rfl, h2, b3, _, rfl, h3, b4, _, rfl, h4,
        b5, _, rfl, h5, b6, _, rfl, h6, r6, [], by simp, h, rfl⟩⟩
    · exact ⟨w, x2, x3, x4, x5, x6, Or.inr ⟨v, b1, _, rfl, h1, b2, _, rfl, h2, b3, _, rfl, h3, b4, _, rfl, h4,
        b5, _, rfl, h5, b6, _, rfl, h6, b7, _, rfl, h7, r7, [], by simp, h, rfl⟩⟩
    · exfalso
      obtain ⟨_, _, _, _, _, _, _, _, _, _, _, _, _, _, _, _, _, _, _, _, _, _, _, _, _, h⟩ := h
      exact ((noPanic_getPrefix 8).bind fun _ => NoPanic.pure _) _ h
  · rintro ⟨w, x2, x3, x4, x5, x6, ⟨b1, _, rfl, h1, b2, _, rfl, h2, b3, _, rfl, h3, b4, _, rfl, h4,
        b5, _, rfl, h5, b6, _, rfl, h6, r6, _, rfl, h, rfl⟩ | ⟨v, b1, _, rfl, h1, b2, _, rfl, h2, b3, _, rfl, h3,
        b4, _, rfl, h4, b5, _, rfl, h5, b6, _, rfl, h6, b7, _, rfl, h7, r7, _, rfl, h, rfl⟩⟩
    · exact ⟨w, b1, _, rfl, h1, x2, b2, _, rfl, h2, x3, b3, _, rfl, h3, x4, b4, _, rfl, h4, x5, b5, _, rfl, h5,
        x6, b6, _, rfl, h6, Or.inl (by simpa using h)⟩
    · exact ⟨w, b1, _, rfl, h1, x2, b2, _, rfl, h2, x3, b3, _, rfl, h3, x4, b4, _, rfl, h4, x5, b5, _, rfl, h5,
        x6, b6, _, rfl, h6, Or.inr ⟨v, b7, _, rfl, h7, Or.inl (by simpa using h)⟩⟩

theorem file_panic (file : Bytes) : readProofFile file = .panic ↔
    ∃ p, Parts [Sized (Proof p), CutInputs] file := by
  constructor
  · intro h
    unfold readProofFile at h
    by_cases h8 : file.length < 8
    · simp [h8] at h
    · by_cases hl : (file.drop 8).length < beNat (file.take 8)
      · simp only [h8, hl, if_true, if_false, reduceCtorEq] at h
      · simp only [h8, hl, if_false] at h
        cases hp : StarkProof.deserialize ((file.drop 8).take (beNat (file.take 8))) with
        | panic => exact absurd hp (run'_ne_panic noPanic_starkProof _)
        | err e => simp [hp] at h
        | ok p =>
          have hi : PublicInputs.deserialize ((file.drop 8).drop (beNat (file.take 8))) = .panic := by
            cases hi : PublicInputs.deserialize ((file.drop 8).drop (beNat (file.take 8))) with
            | panic => rfl
            | err e => simp only [hp, hi, reduceCtorEq] at h
            | ok i => simp only [hp, hi, reduceCtorEq] at h
          have hle : beNat (file.take 8) ≤ (file.drop 8).length := by omega
          refine ⟨p, file.take 8 ++ (file.drop 8).take (beNat (file.take 8)),
            (file.drop 8).drop (beNat (file.take 8)), ?_,
            ⟨_, (proof_decodes _ _).mp hp, file.take 8, _, rfl, ⟨by simp; omega, ?_⟩, _, [], by simp, rfl, rfl⟩,
            _, [], by simp, (inputs_panic _).mp hi, rfl⟩
          · rw [List.append_assoc, List.take_append_drop, List.take_append_drop]
          · rw [List.length_take, min_eq_left hle]
  · rintro ⟨p, b, r, rfl, ⟨inner, hp, b1, b2, rfl, ⟨hl, hn⟩, b3, b4, rfl, rfl, rfl⟩, b5, b6, rfl, hi, rfl⟩
    have h1 : ((b1 ++ (b3 ++ [])) ++ (b5 ++ [])).take 8 = b1 := by simp [← hl]
    have h2 : ((b1 ++ (b3 ++ [])) ++ (b5 ++ [])).drop 8 = b3 ++ b5 := by simp [← hl]
    unfold readProofFile
    rw [if_neg (by simp; omega)]
    simp only [h1, h2, hn]
    rw [if_neg (by simp)]
    simp only [List.take_left, List.drop_left, (proof_decodes _ _).mpr hp, (inputs_panic _).mpr hi]

end

end Verif
