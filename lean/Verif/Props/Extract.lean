import Verif.Lemmas.Extract
import Verif.Props.Collision

/-!
# C91: a commitment is fixed when it is made
-/

namespace Verif.Props
open Verif.Spec Verif.Proximity Random

variable {F T Ch : Type} [Field F] [DecidableEq F]

/-- A way from a message to a root that was declared when `s` hashes had been asked for, but which does not begin with the
message that the root stood for then. -/
theorem probability_other_leaf {L : Nat} (hL : 64 ≤ L) (keccak : Bytes → Commitment) (h N s : Nat) (hs : s ≤ N)
    (ask : List Commitment → Message L) (commit : List Commitment → Commitment)
    (f : List Commitment → Bytes × List Commitment × Nat) :
    probability (Message L → Commitment) (fun K =>
      let x := f (answers K ask N)
      x.1.length ≤ L ∧ x.2.1.length ≤ h ∧
      Merkle.climb (nodeHash (drawnHash keccak K)) x.2.1 x.2.2 (drawnHash keccak K x.1) = commit (answers K ask s) ∧
      standsFor K ask s x.2.1.length (commit (answers K ask s)) x.2.2 ≠ some x.1)
      ≤ (4 * (N + h + 1) ^ 2 : ℚ) / 2 ^ 256 := by
  classical
  obtain ⟨ask', h1, h2⟩ := ask_path hL keccak h N ask f
  have hdig : ∀ l : List Commitment, probability Commitment (fun d => id d ∈ l) ≤ (l.length : ℚ) / 2 ^ 256 := fun l => by
    have := probability_mem l
    rwa [card_digests] at this
  have hits := probability_hits (text := fun m : Message L => some m.val) (digest := id) (ask := ask')
    (declared := fun l => if l.length = s then [commit l] else []) hdig (r := 1)
    (fun l => by split <;> simp) (N + h + 1)
  refine (probability_mono fun K hK => ?_).trans (hits.trans (le_of_eq (by push_cast; ring)))
  dsimp only at hK
  obtain ⟨g1, g2, g3, g4⟩ := hK
  have hb : ∀ i ≤ N, answers K ask' i = answers K ask i := fun i hi => answers_before K ask ask' N h1 hi
  by_contra hno
  refine g4 ?_
  have hsame : hashed (fun m : Message L => some m.val) id ask' (answers K ask' s)
      = hashed (fun m : Message L => some m.val) id ask (answers K ask s) := by
    rw [hb s hs]
    unfold hashed
    refine List.flatMap_congr fun j hj => ?_
    rw [answers_length, List.mem_range] at hj
    rw [h1 _ (by rw [List.length_take, answers_length]; omega)]
  unfold standsFor
  rw [← hsame]
  refine leafBehind_of_not_hit hno (hash := drawnHash keccak K) (fun x m hx => ?_) (by omega) _ _ _ (fun x hx => ?_) ?_ g3
  · obtain rfl := Option.some.inj hx
    exact dif_pos x.property
  · obtain ⟨-, i, hi, e⟩ := h2 K g1 g2 x hx
    exact ⟨i, hi, congrArg some e⟩
  · rw [mem_targets]
    refine .inr (.inr ⟨s, le_rfl, ?_⟩)
    rw [if_pos (answers_length K ask' s), hb s hs]
    exact List.mem_singleton.mpr rfl

/-- **C91**, one commitment: with a hash function drawn at random, someone asks for `N` hashes, choosing every message from
the hashes seen so far, and names a root after the first `s`. What the root can be opened to is then fixed: the
probability that an opening with a path of length at most `h` is accepted in the end, for a value other than the one that
the first `s` hashes show to be in the tree at this index, is at most `4 (N + h + 1)^2 / 2^256`. -/
theorem C91_committed {V : Type} (encode : V → Bytes) {L : Nat} (hL : 64 ≤ L) (keccak : Bytes → Commitment) (h N s : Nat)
    (hs : s ≤ N) (ask : List Commitment → Message L) (commit : List Commitment → Commitment)
    (out : List Commitment → Nat × MerkleProof × V) :
    probability (Message L → Commitment) (fun K =>
      let hash := drawnHash keccak K
      let root := commit (answers K ask s)
      let ⟨index, proof, v⟩ := out (answers K ask N)
      (encode v).length ≤ L ∧ proof.merklePath.length ≤ h ∧
      Merkle.verify (fun v => hash (encode v)) (nodeHash hash) proof root index v = true ∧
      standsFor K ask s proof.merklePath.length root index ≠ some (encode v))
      ≤ (4 * (N + h + 1) ^ 2 : ℚ) / 2 ^ 256 := by
  refine (probability_mono fun K hK => ?_).trans (probability_other_leaf hL keccak h N s hs ask commit fun l =>
    (encode (out l).2.2, (out l).2.1.merklePath, (out l).1))
  obtain ⟨h1, h2, h3, h4⟩ := hK
  exact ⟨h1, h2, (of_decide_eq_true h3).symm, h4⟩

/-- **C91**, proofs: with the hash function of the Merkle trees drawn at random (and everything else, for example the
transcript, depending on it in any way), someone asks for `N` hashes, choosing every message from the hashes seen so far,
and names a root after the first `s`. The probability that an accepted proof for the statement with this root for the
composition polynomial or a layer of FRI opens it to other values, with a path of length at most `h`, than those that the
first `s` hashes show to be in the tree, is at most `4 (N + h + 1)^2 / 2^256`. -/
theorem C91_answers {PI : Type} {L : Nat} (hL : 64 ≤ L) (keccak : Bytes → Commitment) {toBytes : F → Bytes}
    (hlen : ∀ x, (toBytes x).length = 32) (env : (Message L → Commitment) → Env F T)
    (hhash : ∀ K, (env K).hashes = keccakHashes (drawnHash keccak K) toBytes) {new : AirNew F Ch PI} {pi : PI}
    {options : ProofOptions} {n : Nat} {air : Air F Ch} (hair : new n pi options = .ok air) {a b : Nat} (S : Setting air a b)
    (h N s : Nat) (hs : s ≤ N) (ask : List Commitment → Message L) (commit : List Commitment → Commitment)
    (out : List Commitment → StarkProof F × Place × Nat) :
    probability (Message L → Commitment) (fun K =>
      let root := commit (answers K ask s)
      let ⟨p, place, iota⟩ := out (answers K ask N)
      p.traceLength = n ∧ verify (env K) new p pi options = .ok true ∧
      place.Within p.friLayersMerkleRoots.length ∧ rootAt p place = some root ∧
      (∃ d c t, Domain.new (env K).ta air = .ok d ∧ step1 (env K) air p d (env K).tr.init = .ok (c, t) ∧
        c.iotas[place.query]? = some iota) ∧
      ∃ proof values, place.opening p = some (proof, values) ∧ proof.merklePath.length ≤ h ∧
        standsFor K ask s proof.merklePath.length root (indexOf (a + b) iota place) ≠ some (values.flatMap toBytes))
      ≤ (4 * (N + h + 1) ^ 2 : ℚ) / 2 ^ 256 := by
  have hbytes : ∀ l : List F, (l.flatMap toBytes).length = 32 * l.length := by
    intro l
    induction l with
    | nil => rfl
    | cons x l ih => rw [List.flatMap_cons, List.length_append, ih, hlen, List.length_cons]; ring
  refine (probability_mono fun K hK => ?_).trans (probability_other_leaf hL keccak h N s hs ask commit fun l =>
    let x := out l
    (((x.2.1.opening x.1).map fun y => y.2.flatMap toBytes).getD [],
      ((x.2.1.opening x.1).map fun y => y.1.merklePath).getD [], indexOf (a + b) x.2.2 x.2.1))
  generalize out (answers K ask N) = o at hK ⊢
  obtain ⟨p, place, iota⟩ := o
  obtain ⟨rfl, h1, h3, h0, ⟨d, c, t, h4, h5, h6⟩, proof, values, hx, h7, h8⟩ := hK
  have r1 := accepted_opening (hhash K) hair S h1 h3 h4 h5 h6 hx
  rw [h0] at r1
  have hv2 : values.length ≤ 2 := by
    rw [opening_values hx]
    unfold Place.width
    split <;> omega
  dsimp only
  rw [hx]
  exact ⟨by simp only [Option.map_some, Option.getD_some]; rw [hbytes]; omega, h7, (Option.some.inj r1).symm, h8⟩

section examples
open Verif.Examples Verif.ExampleAirs

/-- Nothing is known of a root when no hash has been asked for, and with a constant hash function it can be opened all
the same: what `C91_committed` bounds can happen. -/
example (keccak : Bytes → Commitment) (root : Commitment) (ask : List Commitment → Message 64) :
    ∃ K : Message 64 → Commitment,
    Merkle.verify (fun v => drawnHash keccak K (feToBytesBe v)) (nodeHash (drawnHash keccak K)) ⟨[root]⟩ root 0 1 = true ∧
    standsFor K ask 0 1 root 0 ≠ some (feToBytesBe 1) := by
  refine ⟨fun _ => root, ?_, nofun⟩
  unfold Merkle.verify
  rw [decide_eq_true_iff, Merkle.climb, Merkle.climb, if_pos rfl, nodeHash, drawnHash, dif_pos]
  rw [List.length_append]
  have h1 := root.property
  have h2 : ∀ c : Commitment, c.val.length = 32 := fun c => c.property
  rw [h2, h1]

/-- A root whose leaf has been hashed stands for it. -/
example (K : Message 64 → Commitment) (m : Message 64) :
    standsFor K (fun _ => m) 1 0 (K m) 7 = some m.val := by
  simp [standsFor, leafBehind, hashed, behind, answers]

/-- So does a root over two leaves, if the three hashes are different: the left one at even indices, the right one at odd
ones. -/
example (K : Message 64 → Commitment) (m m' : Message 64)
    (h1 : K m ≠ K m') (h2 : K m ≠ K (short 64 ((K m).val ++ (K m').val)))
    (h3 : K m' ≠ K (short 64 ((K m).val ++ (K m').val))) :
    let ask := fun l : List Commitment => match l with
      | [] => m
      | [_] => m'
      | x :: y :: _ => short 64 (x.val ++ y.val)
    standsFor K ask 3 1 (K (short 64 ((K m).val ++ (K m').val))) 2 = some m.val ∧
      standsFor K ask 3 1 (K (short 64 ((K m).val ++ (K m').val))) 5 = some m'.val := by
  have hl : ∀ c : Commitment, c.val.length = 32 := fun c => c.property
  have hs : (short 64 ((K m).val ++ (K m').val)).val = (K m).val ++ (K m').val :=
    short_val (by rw [List.length_append, hl, hl])
  have hlen : ((K m).val ++ (K m').val).length = 64 := by rw [List.length_append, hl, hl]
  constructor <;>
  simp [standsFor, leafBehind, hashed, behind, answers, List.range_succ, h1, h2, h3, halfOf, hs, hl]

/-- The program for two squares with the hash function of its Merkle trees, and of its transcript, drawn at random. -/
example (keccak : Bytes → Commitment) (h N : Nat) (ask : List Commitment → Message 1000)
    (commit : List Commitment → Commitment) (out : List Commitment → StarkProof FE × Place × Nat) :=
  C91_answers (L := 1000) (by norm_num) keccak length_feToBytesBe
    (fun K => { hashing envDrawn K (fun m => drawnHash keccak K m.val) with
      toBytes := feToBytesBe, hashes := keccakHashes (drawnHash keccak K) feToBytesBe })
    (fun _ => rfl) airDrawn_eq settingDrawn h (N + 1) N (Nat.le_succ N) ask commit out

end examples

end Verif.Props
