import Verif.Lemmas.Collision
import Verif.Props.Tamper
import Verif.Props.Heard

/-!
# C90: what it takes to open a commitment in two ways
-/

namespace Verif.Props
open Verif.Spec Verif.Proximity Random

variable {F T Ch : Type} [Field F] [DecidableEq F]

/-- **C90**, the hash: with a hash function drawn at random, whoever asks for `N` hashes, choosing every message from the
hashes seen so far, finds two messages with the same hash with probability at most `N^2 / 2^257`. -/
theorem C90_collision {L : Nat} (ask : List Commitment → Message L) (N : Nat) :
    probability (Message L → Commitment) (fun K => ∃ i < N, ∃ j < N,
      ask (answers K ask i) ≠ ask (answers K ask j) ∧ K (ask (answers K ask i)) = K (ask (answers K ask j)))
      ≤ (N : ℚ) ^ 2 / 2 ^ 257 := by
  classical
  have h := probability_collision (D := Commitment) ask N
  rw [card_digests] at h
  exact h.trans (pairs_le N rfl 256)

/-- **C90**, one commitment: with a hash function drawn at random, whoever asks for `N` hashes, choosing every message from
the hashes seen so far, ends with a root, an index and two different openings there that are both accepted, with paths of
the same length of at most `h`, with probability at most `(N + 2 (h + 1))^2 / 2^257`. -/
theorem C90_two_openings {V : Type} (encode : V → Bytes) {L : Nat} (hL : 64 ≤ L) (keccak : Bytes → Commitment) (h N : Nat)
    (ask : List Commitment → Message L)
    (out : List Commitment → Commitment × Nat × (MerkleProof × V) × (MerkleProof × V)) :
    probability (Message L → Commitment) (fun K =>
      let hash := drawnHash keccak K
      let ⟨root, index, (proof, v), (proof', v')⟩ := out (answers K ask N)
      (encode v).length ≤ L ∧ (encode v').length ≤ L ∧
      proof.merklePath.length = proof'.merklePath.length ∧ proof.merklePath.length ≤ h ∧
      (encode v ≠ encode v' ∨ proof ≠ proof') ∧
      Merkle.verify (fun v => hash (encode v)) (nodeHash hash) proof root index v = true ∧
      Merkle.verify (fun v => hash (encode v)) (nodeHash hash) proof' root index v' = true)
      ≤ ((N + 2 * (h + 1)) ^ 2 : ℚ) / 2 ^ 257 := by
  refine (probability_mono fun K hK => ?_).trans (probability_two_ways hL keccak h N ask fun l =>
    ((out l).2.1, (encode (out l).2.2.1.2, (out l).2.2.1.1.merklePath), (encode (out l).2.2.2.2, (out l).2.2.2.1.merklePath)))
  obtain ⟨h1, h2, h3, h4, h5, h6, h7⟩ := hK
  unfold Merkle.verify at h6 h7
  rw [decide_eq_true_iff] at h6 h7
  refine ⟨h1, h2, h3, h4, fun he => ?_, h6.symm.trans h7⟩
  obtain ⟨e1, e2⟩ := Prod.mk.inj he
  rcases h5 with h5 | h5
  · exact h5 e1
  · refine h5 ?_
    generalize (out (answers K ask N)).2.2.1.1 = p at *
    generalize (out (answers K ask N)).2.2.2.1 = p' at *
    cases p
    cases p'
    exact congrArg _ e2

/-- What an accepted proof opens is on a path to the root. -/
theorem accepted_opening {PI : Type} {env : Env F T} {hash : Bytes → Commitment} {toBytes : F → Bytes}
    (hhash : env.hashes = keccakHashes hash toBytes) {new : AirNew F Ch PI} {pi : PI} {options : ProofOptions}
    {p : StarkProof F} {air : Air F Ch} (hair : new p.traceLength pi options = .ok air) {a b : Nat} (S : Setting air a b)
    (h : verify env new p pi options = .ok true) {place : Place} (hw : place.Within p.friLayersMerkleRoots.length)
    {d : Domain F} {c : Challenges F Ch} {t : T} {iota : Nat} (hd : Domain.new env.ta air = .ok d)
    (hc : step1 env air p d env.tr.init = .ok (c, t)) (hi : c.iotas[place.query]? = some iota)
    {x : MerkleProof × List F} (hx : place.opening p = some x) :
    rootAt p place = some (Merkle.climb (nodeHash hash) x.1.merklePath (indexOf (a + b) iota place)
      (hash (x.2.flatMap toBytes))) := by
  obtain ⟨d', c', t', g, w, h1, h2, -, -, -, -, -, -, -, h7, h8⟩ := C45_accepted_checks_partial hair S h
  obtain rfl : d = d' := Outcome.ok.inj (hd.symm.trans h1)
  obtain ⟨rfl, -⟩ := Prod.mk.inj (Outcome.ok.inj (hc.symm.trans h2))
  cases place with
  | composition i =>
    simp only [Place.opening, Option.bind_eq_bind, Option.bind_eq_some_iff, Option.pure_def, Option.some.injEq] at hx
    obtain ⟨o, ho, rfl⟩ := hx
    obtain ⟨q, -, O⟩ := h8 i iota o hi ho
    have := O.opened
    rw [hhash] at this
    exact congrArg some (of_decide_eq_true this)
  | layer i j =>
    simp only [Place.opening, Option.bind_eq_bind, Option.bind_eq_some_iff, Option.pure_def, Option.some.injEq] at hx
    obtain ⟨q, hq, path, e1, v, e2, pathSym, e3, vSym, e4, rfl⟩ := hx
    obtain ⟨ζ, -, L⟩ := (h7 i q iota hq hi).2 j _ path v pathSym vSym (List.getElem?_eq_getElem hw) e1 e2 e3 e4
    have := L.opened
    rw [hhash] at this
    refine (List.getElem?_eq_getElem hw).trans (congrArg some ((of_decide_eq_true this).trans ?_))
    simp only [List.flatMap_cons, List.flatMap_nil, List.append_nil]
    rfl
  | opposite i j =>
    simp only [Place.opening, Option.bind_eq_bind, Option.bind_eq_some_iff, Option.pure_def, Option.some.injEq] at hx
    obtain ⟨q, hq, path, e1, v, e2, pathSym, e3, vSym, e4, rfl⟩ := hx
    obtain ⟨ζ, -, L⟩ := (h7 i q iota hq hi).2 j _ path v pathSym vSym (List.getElem?_eq_getElem hw) e1 e2 e3 e4
    have := L.openedSym
    rw [hhash] at this
    refine (List.getElem?_eq_getElem hw).trans (congrArg some ((of_decide_eq_true this).trans ?_))
    simp only [List.flatMap_cons, List.flatMap_nil, List.append_nil]
    rfl

omit [Field F] [DecidableEq F] in
theorem opening_values {p : StarkProof F} {place : Place} {x : MerkleProof × List F} (hx : place.opening p = some x) :
    x.2.length = place.width := by
  cases place <;>
    simp only [Place.opening, Option.bind_eq_bind, Option.bind_eq_some_iff, Option.pure_def, Option.some.injEq] at hx
  · obtain ⟨o, -, rfl⟩ := hx
    rfl
  · obtain ⟨q, -, path, -, v, -, pathSym, -, vSym, -, rfl⟩ := hx
    rfl
  · obtain ⟨q, -, path, -, v, -, pathSym, -, vSym, -, rfl⟩ := hx
    rfl

omit [Field F] [DecidableEq F] in
theorem flatMap_injective {toBytes : F → Bytes} (hinj : Function.Injective toBytes)
    (hlen : ∀ x, (toBytes x).length = 32) {l l' : List F} (hl : l.length = l'.length)
    (h : l.flatMap toBytes = l'.flatMap toBytes) : l = l' := by
  induction l generalizing l' with
  | nil => exact (List.length_eq_zero_iff.1 hl.symm).symm
  | cons x l ih =>
    obtain ⟨y, l', rfl⟩ : ∃ y r, l' = y :: r := by
      cases l' with
      | nil => simp at hl
      | cons y r => exact ⟨y, r, rfl⟩
    rw [List.flatMap_cons, List.flatMap_cons] at h
    obtain ⟨h1, h2⟩ := List.append_inj h (by rw [hlen, hlen])
    rw [hinj h1, ih (by simpa using hl) h2]

/-- **C90**, proofs: with the hash function of the Merkle trees drawn at random (and everything else, for example the
transcript, depending on it in any way), whoever asks for `N` hashes, choosing every message from the hashes seen so far,
ends with two accepted proofs for one statement that agree in all that is sent before the queries, and a place where they
open different values or show different paths of the same length of at most `h`, with probability at most
`(N + 2 (h + 1))^2 / 2^257`. -/
theorem C90_two_answers {PI : Type} {L : Nat} (hL : 64 ≤ L) (keccak : Bytes → Commitment) {toBytes : F → Bytes}
    (hinj : Function.Injective toBytes) (hlen : ∀ x, (toBytes x).length = 32)
    (env : (Message L → Commitment) → Env F T)
    (hhash : ∀ K, (env K).hashes = keccakHashes (drawnHash keccak K) toBytes) {new : AirNew F Ch PI} {pi : PI}
    {options : ProofOptions} {n : Nat} {air : Air F Ch} (hair : new n pi options = .ok air) {a b : Nat} (S : Setting air a b)
    (h N : Nat) (ask : List Commitment → Message L)
    (out : List Commitment → StarkProof F × List (DeepPolynomialOpenings F) × List (FriDecommitment F) × Place × Nat) :
    probability (Message L → Commitment) (fun K =>
      let ⟨p, openings, queries, place, iota⟩ := out (answers K ask N)
      p.traceLength = n ∧ verify (env K) new p pi options = .ok true ∧
      verify (env K) new (withAnswers p openings queries) pi options = .ok true ∧
      place.Within p.friLayersMerkleRoots.length ∧
      (∃ d c t, Domain.new (env K).ta air = .ok d ∧ step1 (env K) air p d (env K).tr.init = .ok (c, t) ∧
        c.iotas[place.query]? = some iota) ∧
      ∃ x y, place.opening p = some x ∧ place.opening (withAnswers p openings queries) = some y ∧
        x.1.merklePath.length = y.1.merklePath.length ∧ x.1.merklePath.length ≤ h ∧ x ≠ y)
      ≤ ((N + 2 * (h + 1)) ^ 2 : ℚ) / 2 ^ 257 := by
  have hbytes : ∀ l : List F, (l.flatMap toBytes).length = 32 * l.length := by
    intro l
    induction l with
    | nil => rfl
    | cons x l ih => rw [List.flatMap_cons, List.length_append, ih, hlen, List.length_cons]; ring
  let pick (p : StarkProof F) (place : Place) : Bytes × List Commitment :=
    (((place.opening p).map fun x => x.2.flatMap toBytes).getD [],
      ((place.opening p).map fun x => x.1.merklePath).getD [])
  refine (probability_mono fun K hK => ?_).trans (probability_two_ways hL keccak h N ask fun l =>
    let x := out l
    (indexOf (a + b) x.2.2.2.2 x.2.2.2.1, pick x.1 x.2.2.2.1, pick (withAnswers x.1 x.2.1 x.2.2.1) x.2.2.2.1))
  generalize out (answers K ask N) = o at hK ⊢
  obtain ⟨p, openings, queries, place, iota⟩ := o
  obtain ⟨rfl, h1, h2, h3, ⟨d, c, t, h4, h5, h6⟩, x, y, hx, hy, h7, h8, h9⟩ := hK
  have r1 := accepted_opening (hhash K) hair S h1 h3 h4 h5 h6 hx
  have r2 := accepted_opening (p := withAnswers p openings queries) (hhash K) hair S h2 h3 h4 h5 h6 hy
  have hr : rootAt (withAnswers p openings queries) place = rootAt p place := by cases place <;> rfl
  rw [hr, r1] at r2
  have hv : x.2.length = y.2.length := (opening_values hx).trans (opening_values hy).symm
  have hv2 : x.2.length ≤ 2 := by
    rw [opening_values hx]
    unfold Place.width
    split <;> omega
  have e1 : pick p place = (x.2.flatMap toBytes, x.1.merklePath) := by simp only [pick, hx]; rfl
  have e2 : pick (withAnswers p openings queries) place = (y.2.flatMap toBytes, y.1.merklePath) := by
    simp only [pick, hy]; rfl
  dsimp only
  rw [e1, e2]
  refine ⟨by rw [hbytes]; omega, by rw [hbytes]; omega, h7, h8, fun he => h9 ?_, Option.some.inj r2⟩
  obtain ⟨e3, e4⟩ := Prod.mk.inj he
  refine Prod.ext ?_ (flatMap_injective hinj hlen hv e3)
  revert e4
  cases x.1
  cases y.1
  exact congrArg _

section examples
open Verif.Examples Verif.ExampleAirs

theorem feToBytesBe_injective : Function.Injective feToBytesBe := fun x y h => by
  have := congrArg (fun b => ((beNat b : Nat) : FE)) h
  simpa only [feToBytesBe, beNat_beBytes _ _ (fe_val_lt _), ZMod.natCast_zmod_val] using this

/-- With a constant hash function two openings are found at once: what `C90_two_openings` bounds can happen. -/
example (keccak : Bytes → Commitment) (root : Commitment) : ∃ K : Message 64 → Commitment,
    Merkle.verify (fun v => drawnHash keccak K (feToBytesBe v)) (nodeHash (drawnHash keccak K)) ⟨[root]⟩ root 0 1 = true ∧
    Merkle.verify (fun v => drawnHash keccak K (feToBytesBe v)) (nodeHash (drawnHash keccak K)) ⟨[root]⟩ root 0 2 = true ∧
    feToBytesBe 1 ≠ feToBytesBe 2 := by
  refine ⟨fun _ => root, ?_, ?_, fun h => absurd (feToBytesBe_injective h) (by decide +kernel)⟩ <;>
  · unfold Merkle.verify
    rw [decide_eq_true_iff, Merkle.climb, Merkle.climb, if_pos rfl, nodeHash, drawnHash, dif_pos]
    rw [List.length_append]
    have h1 := root.property
    have h2 : ∀ c : Commitment, c.val.length = 32 := fun c => c.property
    rw [h2, h1]

/-- The program for two squares with the hash function of its Merkle trees, and of its transcript, drawn at random. -/
example (keccak : Bytes → Commitment) (h N : Nat) (ask : List Commitment → Message 1000)
    (out : List Commitment → StarkProof FE × List (DeepPolynomialOpenings FE) × List (FriDecommitment FE) × Place × Nat) :=
  C90_two_answers (L := 1000) (by norm_num) keccak feToBytesBe_injective length_feToBytesBe
    (fun K => { hashing envDrawn K (fun m => drawnHash keccak K m.val) with
      toBytes := feToBytesBe, hashes := keccakHashes (drawnHash keccak K) feToBytesBe })
    (fun _ => rfl) airDrawn_eq settingDrawn h N ask out

end examples

end Verif.Props
