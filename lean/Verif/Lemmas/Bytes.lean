import Verif.Model.ProofCodec

/-! Helper lemmas about byte encodings and decoders. -/

namespace Verif

@[simp] theorem length_beBytes (k n : Nat) : (beBytes k n).length = k := by
  induction k generalizing n with
  | zero => rfl
  | succ k ih => simp [beBytes, ih]

@[simp] theorem length_leBytes (k n : Nat) : (leBytes k n).length = k := by
  induction k generalizing n with
  | zero => rfl
  | succ k ih => simp [leBytes, ih]

theorem beNat_append_singleton (bs : Bytes) (b : UInt8) :
    beNat (bs ++ [b]) = beNat bs * 256 + b.toNat := by
  simp [beNat]

theorem beNat_beBytes (k n : Nat) (h : n < 256 ^ k) : beNat (beBytes k n) = n := by
  induction k generalizing n with
  | zero => simp at h; subst h; rfl
  | succ k ih =>
    have h2 : n / 256 < 256 ^ k := by rw [pow_succ] at h; omega
    simp only [beBytes, beNat_append_singleton, ih _ h2, UInt8.toNat_ofNat']
    omega

theorem leNat_leBytes (k n : Nat) (h : n < 256 ^ k) : leNat (leBytes k n) = n := by
  induction k generalizing n with
  | zero => simp at h; subst h; rfl
  | succ k ih =>
    have h2 : n / 256 < 256 ^ k := by rw [pow_succ] at h; omega
    simp only [leBytes, leNat, ih _ h2, UInt8.toNat_ofNat']
    omega

theorem leNat_lt (bs : Bytes) : leNat bs < 256 ^ bs.length := by
  induction bs with
  | nil => simp [leNat]
  | cons b bs ih =>
    have := b.toNat_lt
    simp only [leNat, List.length_cons, pow_succ]
    omega

theorem beNat_lt (bs : Bytes) : beNat bs < 256 ^ bs.length := by
  induction bs using List.reverseRecOn with
  | nil => simp [beNat]
  | append_singleton bs b ih =>
    have := b.toNat_lt
    simp only [beNat_append_singleton, List.length_append, List.length_singleton, pow_succ]
    omega

theorem beBytes_beNat (bs : Bytes) : beBytes bs.length (beNat bs) = bs := by
  induction bs using List.reverseRecOn with
  | nil => rfl
  | append_singleton bs b ih =>
    have hb := b.toNat_lt
    simp only [List.length_append, List.length_singleton, beBytes, beNat_append_singleton]
    have h1 : (beNat bs * 256 + b.toNat) / 256 = beNat bs := by omega
    rw [h1, ih]
    congr 2
    apply UInt8.toNat_inj.1
    simp only [UInt8.toNat_ofNat']
    omega

theorem leBytes_leNat (bs : Bytes) : leBytes bs.length (leNat bs) = bs := by
  induction bs with
  | nil => rfl
  | cons b bs ih =>
    have hb := b.toNat_lt
    simp only [List.length_cons, leBytes, leNat]
    have h1 : (b.toNat + 256 * leNat bs) / 256 = leNat bs := by omega
    rw [h1, ih]
    congr 1
    apply UInt8.toNat_inj.1
    simp only [UInt8.toNat_ofNat']
    omega

@[simp] theorem length_feToBytesBe (x : FE) : (feToBytesBe x).length = 32 := by
  simp [feToBytesBe]

@[simp] theorem length_feToBytesLe (x : FE) : (feToBytesLe x).length = 32 := by
  simp [feToBytesLe]

theorem P_lt : P < 256 ^ 32 := by rw [P_eq]; norm_num

instance : NeZero P := ⟨P_prime.ne_zero⟩

theorem fe_val_lt (x : FE) : x.val < 256 ^ 32 := lt_trans (ZMod.val_lt x) P_lt

theorem feFromBytesBe_toBytes (x : FE) : feFromBytesBe (feToBytesBe x) = some x := by
  have h : (feToBytesBe x).take 32 = feToBytesBe x := List.take_of_length_le (by simp)
  simp only [feFromBytesBe, length_feToBytesBe, lt_irrefl, if_false, h]
  rw [feToBytesBe, beNat_beBytes _ _ (fe_val_lt x), ZMod.natCast_zmod_val]

theorem feFromBytesLe_toBytes (x : FE) : feFromBytesLe (feToBytesLe x) = some x := by
  have h : (feToBytesLe x).take 32 = feToBytesLe x := List.take_of_length_le (by simp)
  simp only [feFromBytesLe, length_feToBytesLe, lt_irrefl, if_false, h]
  rw [feToBytesLe, leNat_leBytes _ _ (fe_val_lt x), ZMod.natCast_zmod_val]

/-! ## Decoders that read exactly an encoding -/

/-- `p` reads exactly `bs` and returns `a`, whatever follows. -/
def Parses {α : Type} (p : Parser α) (bs : Bytes) (a : α) : Prop :=
  ∀ rest, p (bs ++ rest) = .ok (a, rest)

theorem Parses.bind {α β : Type} {p : Parser α} {f : α → Parser β} {b1 b2 : Bytes} {a : α} {c : β}
    (h1 : Parses p b1 a) (h2 : Parses (f a) b2 c) : Parses (p >>= f) (b1 ++ b2) c := by
  intro rest
  show (p _ >>= fun r => f r.1 r.2) = _
  rw [List.append_assoc, h1]
  exact h2 rest

theorem Parses.pure {α : Type} (a : α) : Parses (pure a : Parser α) [] a := fun _ => rfl

theorem Parses.map {α β : Type} {p : Parser α} {b1 : Bytes} {a : α} (g : α → β)
    (h1 : Parses p b1 a) : Parses (p >>= fun x => Pure.pure (g x)) b1 (g a) := by
  have := h1.bind (f := fun x => Pure.pure (g x)) (Parses.pure (g a))
  simpa using this

theorem parses_getPrefix_advance (bs rest : Bytes) (n : Nat) (hn : bs.length = n) :
    (do let b ← getPrefix n; advance n; return b : Parser Bytes) (bs ++ rest) = .ok (bs, rest) := by
  subst hn
  simp [getPrefix, advance, bind, StateT.bind, pure, StateT.pure, Outcome.bind]

theorem parses_readUsize (n : Nat) (h : n < 2 ^ 64) : Parses readUsize (beBytes 8 n) n := by
  intro rest
  have h8 : (beBytes 8 n).length = 8 := by simp
  have := beNat_beBytes 8 n (by norm_num at h ⊢; exact h)
  simp [readUsize, getPrefix, advance, bind, StateT.bind, pure, StateT.pure, Outcome.bind, h8, this]

theorem parses_readFelt (x : FE) : Parses (readFelt 32) (feToBytesBe x) x := by
  intro rest
  have h := feFromBytesBe_toBytes x
  simp [readFelt, getPrefix, advance, bind, StateT.bind, pure, StateT.pure, Outcome.bind,
    StateT.lift, Outcome.okOr, h]

theorem parses_readCommitment (c : Commitment) : Parses readCommitment c.val c := by
  intro rest
  obtain ⟨l, hl⟩ := c
  have ht : (l ++ rest).take 32 = l := by rw [← hl]; simp
  simp [readCommitment, getPrefix, advance, bind, StateT.bind, pure, StateT.pure, Outcome.bind,
    StateT.lift, ht, hl]

theorem parses_readMany {α : Type} {p : Parser α} {enc : α → Bytes} (l : List α)
    (h : ∀ a ∈ l, Parses p (enc a) a) : Parses (readMany p l.length) (l.flatMap enc) l := by
  induction l with
  | nil => exact Parses.pure _
  | cons a as ih =>
    simp only [List.length_cons, readMany, List.flatMap_cons]
    refine (h a (by simp)).bind ?_
    exact Parses.map _ (ih fun x hx => h x (by simp [hx]))

/-- A list is not longer than the concatenation of non-empty encodings of its members. -/
theorem length_le_flatMap {α : Type} (l : List α) (enc : α → Bytes)
    (h : ∀ a ∈ l, 0 < (enc a).length) : l.length ≤ (l.flatMap enc).length := by
  induction l with
  | nil => simp
  | cons a as ih =>
    have h1 := h a (by simp)
    have h2 := ih fun x hx => h x (by simp [hx])
    simp only [List.length_cons, List.flatMap_cons, List.length_append]
    omega

theorem length_enc_le_flatMap {α : Type} (l : List α) (enc : α → Bytes) (a : α) (ha : a ∈ l) :
    (enc a).length ≤ (l.flatMap enc).length := by
  induction l with
  | nil => simp at ha
  | cons b as ih =>
    simp only [List.flatMap_cons, List.length_append]
    rcases List.mem_cons.1 ha with rfl | h
    · omega
    · have := ih h; omega

theorem parses_merkleProof (p : MerkleProof) (h : (serializeMerkleProof p).length < 2 ^ 64) :
    Parses parseMerkleProof (serializeMerkleProof p) p := by
  have hlen : p.merklePath.length < 2 ^ 64 := by
    have := length_le_flatMap p.merklePath (·.val) (fun a _ => by simp [a.2])
    simp only [serializeMerkleProof, List.length_append] at h
    omega
  exact (parses_readUsize _ hlen).bind
    (Parses.map _ (parses_readMany _ fun c _ => parses_readCommitment c))

theorem length_serializeMerkleProof_pos (p : MerkleProof) :
    0 < (serializeMerkleProof p).length := by simp [serializeMerkleProof]

theorem run'_of_parses {α : Type} {p : Parser α} {bs : Bytes} {a : α} (h : Parses p bs a)
    (rest : Bytes) : p.run' (bs ++ rest) = .ok a := by
  simp [Parser.run', h rest]

theorem parses_readSized {α : Type} {de : Bytes → Outcome DeserError α} {bs : Bytes} {a : α}
    (h : de bs = .ok a) (hl : bs.length < 2 ^ 64) :
    Parses (readSized de) (beBytes 8 bs.length ++ bs) a := by
  refine (parses_readUsize _ hl).bind ?_
  intro rest
  simp [getPrefix, advance, bind, StateT.bind, pure, StateT.pure, Outcome.bind, StateT.lift, h]

theorem frame_aux (data : List FE) (rw fl : Nat) (rest : Bytes) (hd : data.length < 2 ^ 64)
    (hfl : fl < 2 ^ 64) (hr : rw < 2 ^ 64)
    (hmany : Parses (readMany (readFelt fl) data.length) (data.flatMap feToBytesBe) data) :
    parseFrame.run' (beBytes 8 data.length ++ (beBytes 8 fl ++ (data.flatMap feToBytesBe ++
      (beBytes 8 rw ++ rest)))) = .ok ⟨data, rw⟩ := by
  have hlast : (getPrefix 8) (beBytes 8 rw ++ rest) =
      .ok (beBytes 8 rw, beBytes 8 rw ++ rest) := by
    have : (beBytes 8 rw ++ rest).take 8 = beBytes 8 rw := by
      have := List.take_left (l₁ := beBytes 8 rw) (l₂ := rest)
      rwa [length_beBytes] at this
    simp [getPrefix, this]
  have hb := beNat_beBytes 8 rw (lt_of_lt_of_eq hr (by norm_num))
  simp only [Parser.run', parseFrame,
    bind, StateT.bind, pure, StateT.pure, Outcome.bind,
    parses_readUsize _ hd _, parses_readUsize _ hfl _, hmany _, hlast, hb]

/-- `Frame::deserialize` reads back an encoded frame, whatever follows it. -/
theorem frame_roundtrip (f : Frame FE) (hr : f.rowWidth < 2 ^ 64)
    (h : f.serialize.length < 2 ^ 64) (rest : Bytes) :
    Frame.deserialize (f.serialize ++ rest) = .ok f := by
  obtain ⟨data, rw⟩ := f
  have hdata : data.length < 2 ^ 64 := by
    have := length_le_flatMap data feToBytesBe (fun a _ => by simp)
    simp only [Frame.serialize, List.length_append] at h
    omega
  cases data with
  | nil =>
    have := frame_aux [] rw 0 rest hdata (by norm_num) hr (Parses.pure _)
    simpa only [Frame.deserialize, Frame.serialize, List.append_assoc] using this
  | cons x xs =>
    have := frame_aux (x :: xs) rw 32 rest hdata (by norm_num) hr
      (parses_readMany _ fun c _ => parses_readFelt c)
    simpa only [Frame.deserialize, Frame.serialize, List.append_assoc, length_feToBytesBe] using this

theorem friDecommitment_roundtrip (d : FriDecommitment FE) (bs : Bytes)
    (hs : d.serialize = .ok bs) (h : bs.length < 2 ^ 64) :
    Parses parseFriDecommitment bs d := by
  obtain ⟨sym, evSym, auth, ev⟩ := d
  cases ev with
  | nil => simp [FriDecommitment.serialize] at hs
  | cons e0 es =>
    simp only [FriDecommitment.serialize, length_feToBytesBe, Outcome.ok.injEq] at hs
    subst hs
    have l1 := length_le_flatMap sym serializeMerkleProof (fun a _ => length_serializeMerkleProof_pos a)
    have l2 := length_le_flatMap auth serializeMerkleProof (fun a _ => length_serializeMerkleProof_pos a)
    have l3 := length_le_flatMap evSym feToBytesBe (fun a _ => by simp)
    have l4 := length_le_flatMap (e0 :: es) feToBytesBe (fun a _ => by simp)
    have m1 := length_enc_le_flatMap sym serializeMerkleProof
    have m2 := length_enc_le_flatMap auth serializeMerkleProof
    simp only [List.length_append] at h
    simp only [List.append_assoc]
    refine (parses_readUsize _ (by omega)).bind ?_
    refine (parses_readMany _ fun c hc => parses_merkleProof c (by have := m1 c hc; omega)).bind ?_
    refine (parses_readUsize _ (by norm_num)).bind ?_
    refine (parses_readUsize _ (by omega)).bind ?_
    refine (parses_readMany _ fun c _ => parses_readFelt c).bind ?_
    refine (parses_readUsize _ (by omega)).bind ?_
    refine (parses_readMany (e0 :: es) fun c _ => parses_readFelt c).bind ?_
    refine (parses_readUsize _ (by omega)).bind ?_
    exact Parses.map _ (parses_readMany _ fun c hc => parses_merkleProof c (by have := m2 c hc; omega))

theorem deepOpenings_roundtrip (o : DeepPolynomialOpenings FE) (h : o.serialize.length < 2 ^ 64) :
    Parses parseDeepOpenings o.serialize o := by
  obtain ⟨proof, even, odd, proofs, evs⟩ := o
  have l1 := length_le_flatMap proofs serializeMerkleProof (fun a _ => length_serializeMerkleProof_pos a)
  have l2 := length_le_flatMap evs feToBytesBe (fun a _ => by simp)
  have m1 := length_enc_le_flatMap proofs serializeMerkleProof
  simp only [DeepPolynomialOpenings.serialize, length_feToBytesBe, List.length_append] at h
  simp only [DeepPolynomialOpenings.serialize, length_feToBytesBe, List.append_assoc]
  refine (parses_merkleProof _ (by omega)).bind ?_
  refine (parses_readUsize _ (by norm_num)).bind ?_
  refine (parses_readFelt _).bind ?_
  refine (parses_readFelt _).bind ?_
  refine (parses_readUsize _ (by omega)).bind ?_
  refine (parses_readMany _ fun c hc => parses_merkleProof c (by have := m1 c hc; omega)).bind ?_
  refine (parses_readUsize _ (by omega)).bind ?_
  exact Parses.map _ (parses_readMany _ fun c _ => parses_readFelt c)

theorem parses_queries (qs : List (FriDecommitment FE)) (bs : Bytes)
    (hs : serializeQueries qs = .ok bs) (h : bs.length < 2 ^ 64) :
    Parses (readMany (readSized FriDecommitment.deserialize) qs.length) bs qs
      ∧ qs.length ≤ bs.length := by
  induction qs generalizing bs with
  | nil =>
    simp only [serializeQueries, Outcome.ok.injEq] at hs
    subst hs
    exact ⟨Parses.pure _, by simp⟩
  | cons q qs ih =>
    simp only [serializeQueries, Outcome.bind_eq_ok, Outcome.pure_eq, Outcome.ok.injEq] at hs
    obtain ⟨b, hb, rest, hrest, rfl⟩ := hs
    simp only [List.length_append, length_beBytes] at h
    have hq := friDecommitment_roundtrip q b hb (by omega)
    obtain ⟨hqs, hlen⟩ := ih rest hrest (by omega)
    refine ⟨?_, by simp; omega⟩
    have hde : FriDecommitment.deserialize b = .ok q := by
      have := run'_of_parses hq []
      simpa [FriDecommitment.deserialize] using this
    exact (parses_readSized hde (by omega)).bind (Parses.map _ hqs)

theorem parses_readNonce (junk : Bytes) (n : Nat) (h : n < 2 ^ 64) :
    readNonce (junk ++ beBytes 8 n) = .ok (n, junk ++ beBytes 8 n) := by
  have hb := beNat_beBytes 8 n (lt_of_lt_of_eq h (by norm_num))
  have hl : (junk ++ beBytes 8 n).length = junk.length + 8 := by simp
  have h1 : ¬ (junk ++ beBytes 8 n).length < 8 := by omega
  have h2 : (junk ++ beBytes 8 n).length - 8 = junk.length := by omega
  simp only [readNonce, h1, if_false, h2, List.drop_left, hb]

/-- The decoder reads back an encoded proof, even with bytes inserted before the nonce. -/
theorem starkProof_roundtrip_junk (p : StarkProof FE) (bs : Bytes) (hs : p.serialize = .ok bs)
    (h : bs.length < 2 ^ 64) (ht : p.traceLength < 2 ^ 64) (hn : p.nonce < 2 ^ 64)
    (hr : p.traceOodFrameEvaluations.rowWidth < 2 ^ 64) :
    ∃ body, bs = body ++ beBytes 8 p.nonce ∧
      ∀ junk, StarkProof.deserialize (body ++ (junk ++ beBytes 8 p.nonce)) = .ok p := by
  obtain ⟨tl, roots, frame, croot, even, odd, fri, last, qs, ops, nonce⟩ := p
  simp only [StarkProof.serialize, Outcome.bind_eq_ok, Outcome.pure_eq, Outcome.ok.injEq] at hs
  obtain ⟨qb, hqb, rfl⟩ := hs
  simp only at ht hn hr
  have l1 := length_le_flatMap roots (·.val) (fun a _ => by simp [a.2])
  have l2 := length_le_flatMap fri (·.val) (fun a _ => by simp [a.2])
  have l3 := length_le_flatMap ops (fun o => beBytes 8 o.serialize.length ++ o.serialize)
    (fun a _ => by simp)
  have m3 := length_enc_le_flatMap ops (fun o => beBytes 8 o.serialize.length ++ o.serialize)
  simp only [length_feToBytesBe, List.length_append, length_beBytes] at h
  obtain ⟨hq, hql⟩ := parses_queries qs qb hqb (by omega)
  have hframe : Frame.deserialize frame.serialize = .ok frame := by
    have := frame_roundtrip frame hr (by omega) []
    simpa using this
  have hopen : Parses (readMany (readSized DeepPolynomialOpenings.deserialize) ops.length)
      (ops.flatMap (fun o => beBytes 8 o.serialize.length ++ o.serialize)) ops := by
    refine parses_readMany _ fun o ho => ?_
    have hl := m3 o ho
    simp only [List.length_append, length_beBytes] at hl
    refine parses_readSized ?_ (by omega)
    have := run'_of_parses (deepOpenings_roundtrip o (by omega)) []
    simpa [DeepPolynomialOpenings.deserialize] using this
  have e1 := parses_readUsize tl ht
  have e2 := parses_readUsize roots.length (by omega)
  have e3 := parses_readMany (p := readCommitment) (enc := (·.val)) roots
    fun c _ => parses_readCommitment c
  have e4 := parses_readSized hframe (by omega)
  have e5 := parses_readCommitment croot
  have e6 := parses_readUsize 32 (by norm_num)
  have e9 := parses_readUsize fri.length (by omega)
  have e10 := parses_readMany (p := readCommitment) (enc := (·.val)) fri
    fun c _ => parses_readCommitment c
  have e11 := parses_readUsize qs.length (by omega)
  have e12 := parses_readUsize ops.length (by omega)
  have e4' : ∀ rest, (readSized Frame.deserialize) (beBytes 8 frame.serialize.length ++
      (frame.serialize ++ rest)) = .ok (frame, rest) := by
    intro rest; have := e4 rest; simpa using this
  refine ⟨_, rfl, fun junk => ?_⟩
  have e13 := parses_readNonce junk nonce hn
  simp only [StarkProof.deserialize, Parser.run', parseStarkProof, List.append_assoc,
    length_feToBytesBe, bind, StateT.bind, pure, StateT.pure, Outcome.bind,
    e1 _, e2 _, e3 _, e4' _, e5 _, e6 _, parses_readFelt _ _, e9 _, e10 _, e11 _, hq _, e12 _,
    hopen _, e13]

theorem starkProof_roundtrip (p : StarkProof FE) (bs : Bytes) (hs : p.serialize = .ok bs)
    (h : bs.length < 2 ^ 64) (ht : p.traceLength < 2 ^ 64) (hn : p.nonce < 2 ^ 64)
    (hr : p.traceOodFrameEvaluations.rowWidth < 2 ^ 64) :
    StarkProof.deserialize bs = .ok p := by
  obtain ⟨body, rfl, hb⟩ := starkProof_roundtrip_junk p bs hs h ht hn hr
  exact hb []

theorem serializeQueries_ok_iff (qs : List (FriDecommitment FE)) :
    (∃ bs, serializeQueries qs = .ok bs) ↔ ∀ q ∈ qs, q.layersEvaluations ≠ [] := by
  induction qs with
  | nil => simp [serializeQueries]
  | cons q qs ih =>
    simp only [serializeQueries, Outcome.bind_eq_ok, List.mem_cons, forall_eq_or_imp, ← ih]
    constructor
    · rintro ⟨bs, b, hb, r, hr, _⟩
      refine ⟨?_, r, hr⟩
      intro hq
      simp [FriDecommitment.serialize, hq] at hb
    · rintro ⟨hq, r, hr⟩
      cases he : q.layersEvaluations with
      | nil => exact absurd he hq
      | cons e es => exact ⟨_, _, by simp only [FriDecommitment.serialize, he]; rfl, r, hr, rfl⟩

theorem starkProof_serialize_ok_iff (p : StarkProof FE) :
    (∃ bs, p.serialize = .ok bs) ↔ ∀ q ∈ p.queryList, q.layersEvaluations ≠ [] := by
  rw [← serializeQueries_ok_iff]
  simp only [StarkProof.serialize, Outcome.bind_eq_ok]
  constructor
  · rintro ⟨_, q, hq, _⟩; exact ⟨q, hq⟩
  · rintro ⟨q, hq⟩; exact ⟨_, q, hq, rfl⟩

/-! ## No panics -/

/-- The decoder never panics. -/
def NoPanic {α : Type} (p : Parser α) : Prop := ∀ bs, p bs ≠ .panic

theorem NoPanic.bind {α β : Type} {p : Parser α} {f : α → Parser β} (h1 : NoPanic p)
    (h2 : ∀ a, NoPanic (f a)) : NoPanic (p >>= f) := by
  intro bs
  show (p bs >>= fun r => f r.1 r.2) ≠ .panic
  intro hc
  rcases Outcome.bind_eq_panic.1 hc with h | ⟨r, _, h⟩
  · exact h1 _ h
  · exact h2 _ _ h

theorem NoPanic.pure {α : Type} (a : α) : NoPanic (pure a : Parser α) := by
  intro bs h; cases h

theorem noPanic_getPrefix (n : Nat) : NoPanic (getPrefix n) := by
  intro bs; simp only [getPrefix]; split <;> simp

theorem noPanic_readUsize : NoPanic readUsize := by
  intro bs
  by_cases h : 8 ≤ bs.length <;>
  simp [readUsize, getPrefix, advance, bind, StateT.bind, pure, StateT.pure, Outcome.bind, h]

theorem noPanic_readFelt (n : Nat) : NoPanic (readFelt n) := by
  intro bs
  by_cases h : n ≤ bs.length
  · cases hx : feFromBytesBe (bs.take n) <;>
    simp [readFelt, getPrefix, advance, bind, StateT.bind, pure, StateT.pure, Outcome.bind, h,
      StateT.lift, Outcome.okOr, hx]
  · simp [readFelt, getPrefix, bind, StateT.bind, Outcome.bind, h]

theorem noPanic_readCommitment : NoPanic readCommitment := by
  intro bs
  by_cases h : 32 ≤ bs.length <;>
  simp [readCommitment, getPrefix, advance, bind, StateT.bind, pure, StateT.pure, Outcome.bind,
    h, StateT.lift]

theorem noPanic_readMany {α : Type} {p : Parser α} (h : NoPanic p) (n : Nat) :
    NoPanic (readMany p n) := by
  induction n with
  | zero => exact NoPanic.pure _
  | succ n ih => exact h.bind fun _ => ih.bind fun _ => NoPanic.pure _

theorem noPanic_merkleProof : NoPanic parseMerkleProof :=
  noPanic_readUsize.bind fun _ => (noPanic_readMany noPanic_readCommitment _).bind fun _ =>
    NoPanic.pure _

theorem run'_ne_panic {α : Type} {p : Parser α} (h : NoPanic p) (bs : Bytes) :
    p.run' bs ≠ .panic := by
  intro hc
  rcases Outcome.bind_eq_panic.1 hc with h' | ⟨_, _, h'⟩
  · exact h _ h'
  · cases h'

theorem noPanic_readSized {α : Type} {de : Bytes → Outcome DeserError α} (h : ∀ bs, de bs ≠ .panic) :
    NoPanic (readSized de) := by
  refine noPanic_readUsize.bind fun n => ?_
  intro bs
  by_cases hn : n ≤ bs.length
  · cases hx : de (bs.take n) with
    | panic => exact absurd hx (h _)
    | ok a => simp [getPrefix, advance, bind, StateT.bind, pure, StateT.pure, Outcome.bind, hn,
        StateT.lift, hx]
    | err a => simp [getPrefix, bind, StateT.bind, Outcome.bind, hn,
        StateT.lift, hx]
  · simp [getPrefix, bind, StateT.bind, Outcome.bind, hn]

theorem noPanic_frame : NoPanic parseFrame :=
  noPanic_readUsize.bind fun _ => noPanic_readUsize.bind fun _ =>
    (noPanic_readMany (noPanic_readFelt _) _).bind fun _ =>
      (noPanic_getPrefix _).bind fun _ => NoPanic.pure _

theorem noPanic_fri : NoPanic parseFriDecommitment :=
  noPanic_readUsize.bind fun _ => (noPanic_readMany noPanic_merkleProof _).bind fun _ =>
  noPanic_readUsize.bind fun _ => noPanic_readUsize.bind fun _ =>
  (noPanic_readMany (noPanic_readFelt _) _).bind fun _ => noPanic_readUsize.bind fun _ =>
  (noPanic_readMany (noPanic_readFelt _) _).bind fun _ => noPanic_readUsize.bind fun _ =>
  (noPanic_readMany noPanic_merkleProof _).bind fun _ => NoPanic.pure _

theorem noPanic_deep : NoPanic parseDeepOpenings :=
  noPanic_merkleProof.bind fun _ => noPanic_readUsize.bind fun _ =>
  (noPanic_readFelt _).bind fun _ => (noPanic_readFelt _).bind fun _ =>
  noPanic_readUsize.bind fun _ => (noPanic_readMany noPanic_merkleProof _).bind fun _ =>
  noPanic_readUsize.bind fun _ => (noPanic_readMany (noPanic_readFelt _) _).bind fun _ =>
  NoPanic.pure _

theorem noPanic_readNonce : NoPanic readNonce := by
  intro bs; simp only [readNonce]; split <;> simp

theorem noPanic_starkProof : NoPanic parseStarkProof :=
  noPanic_readUsize.bind fun _ => noPanic_readUsize.bind fun _ =>
  (noPanic_readMany noPanic_readCommitment _).bind fun _ =>
  (noPanic_readSized (run'_ne_panic noPanic_frame)).bind fun _ =>
  noPanic_readCommitment.bind fun _ => noPanic_readUsize.bind fun _ =>
  (noPanic_readFelt _).bind fun _ => (noPanic_readFelt _).bind fun _ =>
  noPanic_readUsize.bind fun _ => (noPanic_readMany noPanic_readCommitment _).bind fun _ =>
  (noPanic_readFelt _).bind fun _ => noPanic_readUsize.bind fun _ =>
  (noPanic_readMany (noPanic_readSized (run'_ne_panic noPanic_fri)) _).bind fun _ =>
  noPanic_readUsize.bind fun _ =>
  (noPanic_readMany (noPanic_readSized (run'_ne_panic noPanic_deep)) _).bind fun _ =>
  noPanic_readNonce.bind fun _ => NoPanic.pure _

end Verif
