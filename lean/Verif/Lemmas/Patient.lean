import Verif.Lemmas.Extract
import Verif.Spec.Ordered

/-!
# Asking in blocks, and asking for all that is needed

A searcher is turned into one that asks each question at the end of a block of questions, and that in the end asks for the
hashes of a list of messages that may depend on the hashes before.
-/

namespace Verif
open Verif.Spec

section blocks
variable {X D : Type}

theorem answers_congr (K : X → D) {ask ask' : List D → X} {M : Nat} (h : ∀ l, l.length < M → ask l = ask' l) {n : Nat}
    (hn : n ≤ M) : answers K ask n = answers K ask' n := by
  induction n with
  | zero => rfl
  | succ n ih => rw [answers, answers, ih (by omega), h _ (by rw [answers_length]; omega)]

/-- The last element of each complete block of `B`. -/
def blockEnds (B : Nat) (got : List D) : List D :=
  (List.range (got.length / B)).filterMap fun i => got[(i + 1) * B - 1]?

/-- The searcher that asks `B` questions instead of one. -/
def inBlocks (B : Nat) (spread : X → Nat → X) (ask : List D → X) (got : List D) : X :=
  spread (ask (blockEnds B got)) (got.length % B)

theorem blockEnds_answers (K : X → D) {B : Nat} (hB : 0 < B) {spread : X → Nat → X} (hs : ∀ x, spread x (B - 1) = x)
    (ask : List D → X) (n : Nat) : blockEnds B (answers K (inBlocks B spread ask) n) = answers K ask (n / B) := by
  induction n using Nat.strong_induction_on with
  | _ n ih =>
    have key : ∀ i < n / B, (answers K (inBlocks B spread ask) n)[(i + 1) * B - 1]? = (answers K ask (n / B))[i]? := by
      intro i hi
      have h1 : (i + 1) * B ≤ n := (Nat.mul_le_mul_right B hi).trans (Nat.div_mul_le_self n B)
      have h2 : (i + 1) * B - 1 = i * B + (B - 1) := by rw [Nat.succ_mul]; omega
      have h0 : 0 < (i + 1) * B := Nat.mul_pos (Nat.succ_pos i) hB
      rw [answers_getElem K _ (by omega), answers_getElem K _ hi, inBlocks, ih _ (by omega), answers_length, h2]
      have h3 : (i * B + (B - 1)) / B = i := by
        rw [Nat.add_comm, Nat.add_mul_div_right _ _ hB, Nat.div_eq_of_lt (by omega), Nat.zero_add]
      have h4 : (i * B + (B - 1)) % B = B - 1 := by
        rw [Nat.add_comm, Nat.add_mul_mod_self_right, Nat.mod_eq_of_lt (by omega)]
      rw [h3, h4, hs]
    unfold blockEnds
    rw [answers_length]
    have : ∀ m ≤ n / B, (List.range m).filterMap (fun i => (answers K (inBlocks B spread ask) n)[(i + 1) * B - 1]?)
        = answers K ask m := by
      intro m
      induction m with
      | zero => intro _; rfl
      | succ m ihm =>
        intro hm
        rw [List.range_succ, List.filterMap_append, ihm (by omega), answers]
        congr 1
        simp only [List.filterMap_cons, List.filterMap_nil]
        rw [key m (by omega), answers_getElem K _ (by omega)]
    exact this _ le_rfl

theorem inBlocks_question (K : X → D) {B : Nat} {spread : X → Nat → X} (hs : ∀ x, spread x (B - 1) = x)
    (ask : List D → X) (i : Nat) {j : Nat} (hj : j < B) :
    inBlocks B spread ask (answers K (inBlocks B spread ask) (i * B + j)) = spread (ask (answers K ask i)) j := by
  have hB : 0 < B := by omega
  have h3 : (i * B + j) / B = i := by
    rw [Nat.add_comm, Nat.add_mul_div_right _ _ hB, Nat.div_eq_of_lt hj, Nat.zero_add]
  have h4 : (i * B + j) % B = j := by rw [Nat.add_comm, Nat.add_mul_mod_self_right, Nat.mod_eq_of_lt hj]
  rw [inBlocks, blockEnds_answers K hB hs, answers_length, h3, h4]

theorem hashed_succ (K : X → D) (text : X → Option Bytes) (digest : D → Commitment) (ask : List D → X) (n : Nat) :
    hashed text digest ask (answers K ask (n + 1)) = hashed text digest ask (answers K ask n) ++
      (match text (ask (answers K ask n)) with
        | some m => [(m, digest (K (ask (answers K ask n))))]
        | none => []) := by
  unfold hashed
  rw [answers_length, answers_length, List.range_succ, List.flatMap_append]
  congr 1
  · refine List.flatMap_congr fun j hj => ?_
    rw [List.mem_range] at hj
    rw [answers_prefix K ask (by omega), answers_prefix K ask (by omega), answers_getElem K ask hj,
      answers_getElem K ask (by omega)]
  · simp only [List.flatMap_cons, List.flatMap_nil, List.append_nil]
    rw [answers_prefix K ask (by omega), answers_getElem K ask (by omega)]
    cases text (ask (answers K ask n)) <;> rfl

/-- What has been hashed at the ends of blocks of which only the last question can be for a hash. -/
theorem hashed_blocks (K : X → D) {B : Nat} (hB : 0 < B) {spread : X → Nat → X} (hs : ∀ x, spread x (B - 1) = x)
    {text : X → Option Bytes} (ht : ∀ x j, j < B - 1 → text (spread x j) = none) (digest : D → Commitment)
    (ask : List D → X) (i : Nat) :
    hashed text digest (inBlocks B spread ask) (answers K (inBlocks B spread ask) (i * B))
      = hashed text digest ask (answers K ask i) := by
  induction i with
  | zero => rw [Nat.zero_mul]; rfl
  | succ i ih =>
    have hin : ∀ j ≤ B - 1, hashed text digest (inBlocks B spread ask) (answers K (inBlocks B spread ask) (i * B + j))
        = hashed text digest ask (answers K ask i) := by
      intro j
      induction j with
      | zero => intro _; exact ih
      | succ j ihj =>
        intro hj
        rw [← Nat.add_assoc, hashed_succ, ihj (by omega), inBlocks_question K hs ask i (by omega), ht _ _ (by omega)]
        exact List.append_nil _
    have : (i + 1) * B = i * B + (B - 1) + 1 := by rw [Nat.succ_mul]; omega
    rw [this, hashed_succ, hin _ le_rfl, inBlocks_question K hs ask i (by omega), hs, ← hashed_succ]

theorem hashed_congr (K : X → D) (text : X → Option Bytes) (digest : D → Commitment) {ask ask' : List D → X} {M : Nat}
    (h : ∀ l, l.length < M → ask l = ask' l) {n : Nat} (hn : n ≤ M) :
    hashed text digest ask (answers K ask n) = hashed text digest ask' (answers K ask' n) := by
  induction n with
  | zero => rfl
  | succ n ih =>
    rw [hashed_succ, hashed_succ, ih (by omega), answers_congr K h (by omega : n ≤ M),
      h _ (by rw [answers_length]; omega)]

end blocks

section needs

/-- The list depends only on hashes of its own elements, each element on those before it. -/
def Stepwise (f : (Bytes → Commitment) → List Bytes) : Prop :=
  ∀ K K' n, (∀ m ∈ (f K).take n, K m = K' m) → (f K').take (n + 1) = (f K).take (n + 1)

theorem stepwise_const (l : List Bytes) : Stepwise fun _ => l := fun _ _ _ _ => rfl

theorem Stepwise.append {f g : (Bytes → Commitment) → List Bytes} (hf : Stepwise f) (hg : Stepwise g) :
    Stepwise fun K => f K ++ g K := by
  intro K K' n h
  simp only [List.take_append, List.mem_append] at h
  have h1 := hf K K' n fun m hm => h m (.inl hm)
  rcases Nat.lt_or_ge n (f K).length with hn | hn
  · have h2 : n + 1 ≤ (f K').length := by
      have := congrArg List.length h1
      rw [List.length_take, List.length_take] at this
      omega
    simp only [List.take_append_of_le_length h2, List.take_append_of_le_length (show n + 1 ≤ (f K).length by omega), h1]
  · have h2 : f K' = f K := by
      rw [List.take_of_length_le (show (f K).length ≤ n + 1 by omega)] at h1
      have := congrArg List.length h1
      rw [List.length_take] at this
      rw [← h1, List.take_of_length_le (by omega)]
    have h3 := hg K K' (n - (f K).length) fun m hm => h m (.inr hm)
    simp only [List.take_append, h2, show n + 1 - (f K).length = n - (f K).length + 1 by omega, h3]

theorem stepwise_flatMap {α : Type} {f : α → (Bytes → Commitment) → List Bytes} (l : List α)
    (h : ∀ x ∈ l, Stepwise (f x)) : Stepwise fun K => l.flatMap fun x => f x K := by
  induction l with
  | nil => exact stepwise_const []
  | cons x l ih =>
    simp only [List.flatMap_cons]
    exact (h x (by simp)).append (ih fun y hy => h y (by simp [hy]))

theorem stepwise_messagesOf (path : List Commitment) (m : Bytes) (index : Nat) :
    Stepwise fun K => messagesOf K m path index := by
  induction path generalizing m index with
  | nil => exact stepwise_const [m]
  | cons s path ih =>
    intro K K' n h
    cases n with
    | zero => simp [messagesOf]
    | succ n =>
      simp only [messagesOf, List.take_succ_cons, List.mem_cons, forall_eq_or_imp] at h ⊢
      rw [← h.1]
      congr 1
      exact ih _ _ K K' n h.2

/-- A function with the given values. -/
def fromPairs (zero : Commitment) (ps : List (Bytes × Commitment)) (m : Bytes) : Commitment :=
  ((ps.find? fun x => decide (x.1 = m)).map (·.2)).getD zero

/-- The needed messages asked for so far, with the answers. -/
def needPairs (zero : Commitment) (need : (Bytes → Commitment) → List Bytes) (got : List Commitment) :
    List (Bytes × Commitment) :=
  got.foldl (fun ps c => ps ++ [((need (fromPairs zero ps)).getD ps.length [], c)]) []

/-- The next message that is needed. -/
def nextNeed (zero : Commitment) (need : (Bytes → Commitment) → List Bytes) (got : List Commitment) : Bytes :=
  (need (fromPairs zero (needPairs zero need got))).getD got.length []

theorem fromPairs_true (zero : Commitment) (K : Bytes → Commitment) {l : List Bytes} {m : Bytes} (h : m ∈ l) :
    fromPairs zero (l.map fun x => (x, K x)) m = K m := by
  unfold fromPairs
  induction l with
  | nil => simp at h
  | cons x l ih =>
    rw [List.map_cons, List.find?_cons]
    by_cases hx : x = m
    · simp [hx]
    · simp only [hx, decide_false]
      exact ih ((List.mem_cons.mp h).resolve_left (Ne.symm hx))

theorem needPairs_true (zero : Commitment) {need : (Bytes → Commitment) → List Bytes} (hneed : Stepwise need)
    (K : Bytes → Commitment) (n : Nat) (hn : n ≤ (need K).length) :
    needPairs zero need (((need K).take n).map K) = ((need K).take n).map fun x => (x, K x) := by
  induction n with
  | zero => rfl
  | succ n ih =>
    have hlt : n < (need K).length := hn
    have hnext := hneed K (fromPairs zero (((need K).take n).map fun x => (x, K x))) n fun m hm =>
      (fromPairs_true zero K hm).symm
    have hget : (need (fromPairs zero (((need K).take n).map fun x => (x, K x)))).getD n [] = (need K)[n] := by
      have h1 := congrArg (fun l => l[n]?) hnext
      simp only [List.getElem?_take, Nat.lt_succ_self, if_true] at h1
      rw [List.getD_eq_getElem?_getD, h1, List.getElem?_eq_getElem hlt]
      rfl
    unfold needPairs at ih ⊢
    rw [List.take_succ_eq_append_getElem hlt, List.map_append, List.map_append, List.foldl_append, ih (by omega)]
    simp only [List.map_cons, List.map_nil, List.foldl_cons, List.foldl_nil, List.length_map, List.length_take,
      Nat.min_eq_left hlt.le, hget]

theorem nextNeed_true (zero : Commitment) {need : (Bytes → Commitment) → List Bytes} (hneed : Stepwise need)
    (K : Bytes → Commitment) {n : Nat} (hn : n < (need K).length) :
    nextNeed zero need (((need K).take n).map K) = (need K)[n] := by
  have hnext := hneed K (fromPairs zero (((need K).take n).map fun x => (x, K x))) n fun m hm =>
    (fromPairs_true zero K hm).symm
  unfold nextNeed
  rw [needPairs_true zero hneed K n hn.le, List.length_map, List.length_take, Nat.min_eq_left hn.le]
  have h1 := congrArg (fun l => l[n]?) hnext
  simp only [List.getElem?_take, Nat.lt_succ_self, if_true] at h1
  rw [List.getD_eq_getElem?_getD, h1, List.getElem?_eq_getElem hn]
  rfl

end needs
end Verif
