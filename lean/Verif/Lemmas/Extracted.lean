import Verif.Spec.Extracted
import Verif.Lemmas.Ordered
import Verif.Props.Extract

/-!
# The words that the messages of a prover stand for
-/

namespace Verif
open Verif.Spec Verif.Proximity Random

/-- Only the index up to the size of the tree counts. -/
theorem leafBehind_mod (known : List (Bytes × Commitment)) (h : Nat) (root : Commitment) {s s' : Nat}
    (he : s % 2 ^ h = s' % 2 ^ h) : leafBehind known h root s = leafBehind known h root s' := by
  have hbit : ∀ i < h, s / 2 ^ i % 2 = s' / 2 ^ i % 2 := by
    intro i hi
    have h1 : (s % 2 ^ h).testBit i = (s' % 2 ^ h).testBit i := by rw [he]
    rw [Nat.testBit_mod_two_pow, Nat.testBit_mod_two_pow, decide_eq_true hi, Bool.true_and, Bool.true_and,
      Nat.testBit_eq_decide_div_mod_eq, Nat.testBit_eq_decide_div_mod_eq, decide_eq_decide] at h1
    omega
  clear he
  induction h generalizing root with
  | zero => rfl
  | succ h ih =>
    unfold leafBehind
    rw [hbit h (by omega)]
    congr 1
    funext m
    congr 1
    funext child
    exact ih child fun i hi => hbit i (by omega)

section
variable {L k n : Nat} {R : Type} {keccak : Bytes → Commitment} {toBytes : FE → Bytes}
  {O : Question L k n → Commitment × R} {ask : List (Commitment × R) → Question L k n} {N : Nat}

/-- The root that a question names. -/
def namedBy (ask : List (Commitment × R) → Question L k n) (l : List (Commitment × R)) : List Commitment :=
  match ask l with
  | .inl _ => []
  | .inr y => (latest y).named.toList

theorem namedBy_length (l : List (Commitment × R)) : (namedBy ask l).length ≤ 1 := by
  unfold namedBy
  split
  · simp
  · rename_i y _
    cases (latest y).named <;> simp

/-- What is opened is what the root stood for when it was named. -/
theorem row_of_opening (hinj : Function.Injective toBytes) (hlen : ∀ x, (toBytes x).length = 32)
    (hno : ¬ Hit Question.text Prod.fst ask (namedBy ask) N O) {y : Told (Said k) n} {i : Nat} (hi : i < N)
    (hask : ask (answers O ask i) = .inr y) {root : Commitment} (hroot : (latest y).named = some root)
    {path : List Commitment} {index s : Nat} {values : List FE}
    (hasked : ∀ m ∈ messagesOf (hashOf keccak O) (values.flatMap toBytes) path index,
      ∃ i < N, (ask (answers O ask i)).text = some m)
    (hclimb : Merkle.climb (nodeHash (hashOf keccak O)) path index (hashOf keccak O (values.flatMap toBytes)) = root)
    (hs : s % 2 ^ path.length = index % 2 ^ path.length) :
    rowBehind toBytes (hashed Question.text Prod.fst ask (answers O ask i), y) path.length values.length s = values := by
  have hleaf := leafBehind_of_not_hit hno (hash := hashOf keccak O) (fun x m hx => by
      cases x with
      | inl x =>
        obtain rfl := Option.some.inj hx
        exact dif_pos x.property
      | inr x => cases hx) hi.le path index _ hasked (root := root) (by
      rw [mem_targets]
      refine .inr (.inr ⟨i, le_rfl, ?_⟩)
      unfold namedBy
      rw [hask]
      simp [hroot]) hclimb
  rw [← leafBehind_mod _ _ _ hs] at hleaf
  unfold rowBehind
  have hval : ((latest y).named.bind fun root =>
      leafBehind (hashed Question.text Prod.fst ask (answers O ask i)) path.length root s)
      = some (values.flatMap toBytes) := by
    rw [hroot]
    exact hleaf
  have hex : ∃ v : List FE, v.length = values.length ∧ ((latest y).named.bind fun root =>
      leafBehind (hashed Question.text Prod.fst ask (answers O ask i)) path.length root s) = some (v.flatMap toBytes) :=
    ⟨values, rfl, hval⟩
  rw [dif_pos hex]
  obtain ⟨h1, h2⟩ := hex.choose_spec
  exact Props.flatMap_injective hinj hlen h1 (Option.some.inj (hval.symm.trans h2)).symm

end

/-! ### The messages of a proof -/

theorem saidBy_length (k : Nat) (p : StarkProof FE) : (saidBy k p).length = p.friLayersMerkleRoots.length + 5 := by
  simp [saidBy]

theorem saidBy_layer (k : Nat) {p : StarkProof FE} {j : Nat} {root : Commitment}
    (h : p.friLayersMerkleRoots[j]? = some root) : (saidBy k p)[4 + j]? = some (.root (some root)) := by
  obtain ⟨hj, rfl⟩ := List.getElem?_eq_some_iff.mp h
  unfold saidBy
  rw [List.append_assoc, List.getElem?_append_right (by simp), List.getElem?_append_left (by simpa using hj)]
  simp [hj]

theorem saidBy_last (k : Nat) (p : StarkProof FE) :
    (saidBy k p)[4 + p.friLayersMerkleRoots.length]? = some (.last p.friLastValue (Fin.ofNat _ p.nonce)) := by
  unfold saidBy
  rw [List.getElem?_append_right (by simp; omega)]
  simp only [List.length_append, List.length_cons, List.length_nil, List.length_map]
  rw [show 4 + p.friLayersMerkleRoots.length - (0 + 1 + 1 + 1 + 1 + p.friLayersMerkleRoots.length) = 0 by omega]
  rfl

/-- The messages of a proof are those that the transcript gets. -/
theorem sentAs_saidBy (toBytes : FE → Bytes) {p : StarkProof FE} {k : Nat} (hk : p.traceOodFrameEvaluations.data.length = k)
    (hn : p.nonce < 2 ^ 64) : (saidBy k p).map (sentAs toBytes) = sentBy toBytes p := by
  have hframe : List.ofFn (fun i : Fin k => p.traceOodFrameEvaluations.data.getD i 0) = p.traceOodFrameEvaluations.data := by
    subst hk
    refine List.ext_getElem (by simp) fun i h1 h2 => ?_
    rw [List.getElem_ofFn, List.getD_eq_getElem?_getD, List.getElem?_eq_getElem h2]
    rfl
  have hnonce : (Fin.ofNat (2 ^ 64) p.nonce).val = p.nonce := Nat.mod_eq_of_lt hn
  unfold saidBy sentBy
  simp only [List.map_append, List.map_cons, List.map_nil, List.map_map, sentAs, hframe, hnonce]
  congr 4
  · rcases p.ldeTraceMerkleRoots with _ | ⟨x, l⟩ <;> rfl
  · congr 2
    rcases p.ldeTraceMerkleRoots with _ | ⟨x, _ | ⟨y, l⟩⟩ <;> rfl

theorem latest_first {k n : Nat} {l : Told (Said k) n} {j : Nat} {m : Said k} (h : l.val[j]? = some m) :
    latest (l.first (j + 1)) = m := by
  obtain ⟨hj, rfl⟩ := List.getElem?_eq_some_iff.mp h
  show (l.val.take (j + 1)).getLastD _ = _
  rw [List.take_succ_eq_append_getElem hj, List.getLastD_eq_getLast?, List.getLast?_append]
  rfl

end Verif
