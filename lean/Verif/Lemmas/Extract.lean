import Verif.Spec.Extract
import Verif.Lemmas.Collision

/-!
# Reading off what a commitment stands for
-/

namespace Verif
open Verif.Spec Verif.Proximity Random Finset

theorem climb_append (node : Commitment → Commitment → Commitment) (path : List Commitment) (s : Commitment) (index : Nat)
    (h : Commitment) : Merkle.climb node (path ++ [s]) index h
      = if index / 2 ^ path.length % 2 = 0 then node (Merkle.climb node path index h) s
        else node s (Merkle.climb node path index h) := by
  induction path generalizing index h with
  | nil => simp [Merkle.climb]
  | cons x path ih =>
    rw [List.cons_append, Merkle.climb, ih, Merkle.climb, List.length_cons, Nat.div_div_eq_div_mul, pow_succ']

/-- The last message hashed on the way along a path with one more step. -/
def lastMessage (index k : Nat) (h s : Commitment) : Bytes :=
  if index / 2 ^ k % 2 = 0 then h.val ++ s.val else s.val ++ h.val

theorem messagesOf_append (hash : Bytes → Commitment) (m : Bytes) (path : List Commitment) (s : Commitment) (index : Nat) :
    messagesOf hash m (path ++ [s]) index = messagesOf hash m path index
      ++ [lastMessage index path.length (Merkle.climb (nodeHash hash) path index (hash m)) s] := by
  induction path generalizing index m with
  | nil => simp [messagesOf, lastMessage, Merkle.climb]
  | cons x path ih =>
    rw [List.cons_append, messagesOf, messagesOf, ih, List.cons_append, List.length_cons, Merkle.climb]
    have hif : hash (if index % 2 = 0 then (hash m).val ++ x.val else x.val ++ (hash m).val)
        = if index % 2 = 0 then nodeHash hash (hash m) x else nodeHash hash x (hash m) := by
      split <;> rfl
    rw [hif]
    simp only [lastMessage, Nat.div_div_eq_div_mul, pow_succ']

theorem climb_lastMessage (hash : Bytes → Commitment) (path : List Commitment) (s : Commitment) (index : Nat)
    (h : Commitment) : Merkle.climb (nodeHash hash) (path ++ [s]) index h
      = hash (lastMessage index path.length (Merkle.climb (nodeHash hash) path index h) s) := by
  rw [climb_append, lastMessage]
  split <;> rfl

theorem halfOf_lastMessage (index k : Nat) (h s : Commitment) :
    halfOf (lastMessage index k h s) (index / 2 ^ k % 2 = 0) = some h := by
  have hh : h.val.length = 32 := h.property
  have hs : s.val.length = 32 := s.property
  unfold lastMessage halfOf
  by_cases hc : index / 2 ^ k % 2 = 0
  · simp [hc, hh]
  · simp [hc, hs, hh]

/-- The hashes that appear in a message: its halves. -/
def halvesOf (m : Bytes) : List Commitment := (halfOf m true).toList ++ (halfOf m false).toList

theorem halvesOf_length (m : Bytes) : (halvesOf m).length ≤ 2 := by
  unfold halvesOf
  rw [List.length_append]
  have h : ∀ o : Option Commitment, o.toList.length ≤ 1 := fun o => by cases o <;> simp
  have := h (halfOf m true)
  have := h (halfOf m false)
  omega

theorem mem_halvesOf {m : Bytes} {left : Bool} {d : Commitment} (h : halfOf m left = some d) : d ∈ halvesOf m := by
  unfold halvesOf
  cases left
  · rw [h]; simp
  · rw [h]; simp

section oracle
variable {X D : Type} [Fintype X] [DecidableEq X] [Fintype D] [Nonempty D] {text : X → Option Bytes}
  {digest : D → Commitment} {ask : List D → X} {declared : List D → List Commitment}

/-- The hashes that a searcher has come across when it has seen the answers `l`: the hashes it has got, the halves of the
messages it has asked for and the hashes it has declared. -/
def targets (text : X → Option Bytes) (digest : D → Commitment) (ask : List D → X) (declared : List D → List Commitment)
    (l : List D) : List Commitment :=
  l.map digest ++ ((List.range l.length).flatMap fun j => ((text (ask (l.take j))).map halvesOf).getD [])
    ++ (List.range (l.length + 1)).flatMap fun j => declared (l.take j)

theorem flatMap_range_length {A : Type} (f : Nat → List A) (c n : Nat) (h : ∀ j, (f j).length ≤ c) :
    ((List.range n).flatMap f).length ≤ c * n := by
  induction n with
  | zero => simp
  | succ n ih =>
    rw [List.range_succ, List.flatMap_append, List.length_append, List.flatMap_cons, List.flatMap_nil, List.append_nil,
      Nat.mul_succ]
    exact Nat.add_le_add ih (h n)

omit [Fintype X] [DecidableEq X] [Fintype D] [Nonempty D] in
theorem targets_length {r : Nat} (hr : ∀ l, (declared l).length ≤ r) (l : List D) :
    (targets text digest ask declared l).length ≤ 3 * l.length + r * (l.length + 1) := by
  unfold targets
  rw [List.length_append, List.length_append, List.length_map]
  have h1 := flatMap_range_length (fun j => ((text (ask (l.take j))).map halvesOf).getD []) 2 l.length fun j => by
    cases text (ask (l.take j)) with
    | none => simp
    | some m => exact halvesOf_length m
  have h2 := flatMap_range_length (fun j => declared (l.take j)) r (l.length + 1) fun j => hr _
  omega

/-- A new question is answered with a hash that was come across before. -/
def Hit (text : X → Option Bytes) (digest : D → Commitment) (ask : List D → X) (declared : List D → List Commitment)
    (n : Nat) (K : X → D) : Prop :=
  ∃ i < n, (∀ j < i, ask (answers K ask j) ≠ ask (answers K ask i)) ∧
    digest (K (ask (answers K ask i))) ∈ targets text digest ask declared (answers K ask i)

theorem probability_hits (hdig : ∀ l : List Commitment, probability D (fun d => digest d ∈ l) ≤ l.length / 2 ^ 256)
    {r : Nat} (hr : ∀ l, (declared l).length ≤ r) (n : Nat) :
    probability (X → D) (Hit text digest ask declared n) ≤ ((3 + r) * n ^ 2 : ℚ) / 2 ^ 256 := by
  classical
  have key : ∀ m ≤ n, probability (X → D) (Hit text digest ask declared m)
      ≤ (m : ℚ) * ((3 + r) * n / 2 ^ 256) := by
    intro m hm
    induction m with
    | zero =>
      refine (probability_mono (Q := fun _ => False) fun K ⟨i, hi, _⟩ => absurd hi (Nat.not_lt_zero i)).trans ?_
      rw [probability_false]
      simp
    | succ m ih =>
      refine (probability_mono (Q := fun K => Hit text digest ask declared m K ∨
        ((∀ j < m, ask (answers K ask j) ≠ ask (answers K ask m)) ∧
        digest (K (ask (answers K ask m))) ∈ targets text digest ask declared (answers K ask m))) ?_).trans
          ((probability_or _ _).trans ?_)
      · rintro K ⟨i, hi, h⟩
        rcases Nat.lt_succ_iff_lt_or_eq.mp hi with hi | rfl
        · exact .inl ⟨i, hi, h⟩
        · exact .inr h
      · have h1 := probability_new_given (p := ((3 + r) * n / 2 ^ 256 : ℚ)) ask
          (fun l d => digest d ∈ targets text digest ask declared l) m (by
          rintro l rfl
          refine (hdig _).trans ?_
          refine div_le_div_of_nonneg_right ?_ (by positivity)
          have h2 := targets_length (text := text) (digest := digest) (ask := ask) hr l
          have h3 : 3 * l.length + r * (l.length + 1) ≤ (3 + r) * n := by
            rw [Nat.add_mul]
            exact Nat.add_le_add (Nat.mul_le_mul_left _ (by omega)) (Nat.mul_le_mul_left _ (by omega))
          exact_mod_cast h2.trans h3)
        refine (add_le_add (ih (by omega)) h1).trans (le_of_eq ?_)
        push_cast
        ring
  refine (key n le_rfl).trans (le_of_eq ?_)
  ring

omit [Fintype X] [DecidableEq X] [Fintype D] [Nonempty D]

theorem answers_getElem (K : X → D) (ask : List D → X) {n j : Nat} (h : j < n) :
    (answers K ask n)[j]? = some (K (ask (answers K ask j))) := by
  induction n with
  | zero => omega
  | succ n ih =>
    rw [answers]
    rcases Nat.lt_succ_iff_lt_or_eq.mp h with h | rfl
    · rw [List.getElem?_append_left (by rw [answers_length]; exact h), ih h]
    · rw [List.getElem?_append_right (by rw [answers_length]), answers_length, Nat.sub_self]
      rfl

theorem answers_prefix (K : X → D) (ask : List D → X) {i j : Nat} (h : i ≤ j) :
    (answers K ask j).take i = answers K ask i := by
  obtain ⟨k, rfl⟩ := Nat.exists_eq_add_of_le h
  exact answers_take K ask i k

theorem mem_targets (K : X → D) (n : Nat) (c : Commitment) :
    c ∈ targets text digest ask declared (answers K ask n) ↔ (∃ j < n, digest (K (ask (answers K ask j))) = c) ∨
      (∃ j < n, ∃ m, text (ask (answers K ask j)) = some m ∧ c ∈ halvesOf m) ∨ ∃ j ≤ n, c ∈ declared (answers K ask j) := by
  unfold targets
  rw [List.mem_append, List.mem_append, List.mem_map, or_assoc, List.mem_flatMap, List.mem_flatMap, answers_length]
  refine or_congr ?_ (or_congr ?_ ?_)
  · constructor
    · rintro ⟨x, hx, rfl⟩
      obtain ⟨j, hj, rfl⟩ := (mem_answers K ask n x).mp hx
      exact ⟨j, hj, rfl⟩
    · rintro ⟨j, hj, rfl⟩
      exact ⟨_, (mem_answers K ask n _).mpr ⟨j, hj, rfl⟩, rfl⟩
  · constructor
    · rintro ⟨j, hj, h⟩
      have hj' := List.mem_range.mp hj
      rw [answers_prefix K ask hj'.le] at h
      cases ht : text (ask (answers K ask j)) with
      | none => rw [ht] at h; simp at h
      | some m => rw [ht] at h; exact ⟨j, hj', m, ht, h⟩
    · rintro ⟨j, hj, m, ht, h⟩
      exact ⟨j, List.mem_range.mpr hj, by rw [answers_prefix K ask hj.le, ht]; exact h⟩
  · constructor
    · rintro ⟨j, hj, h⟩
      have hj' : j ≤ n := Nat.lt_succ_iff.mp (List.mem_range.mp hj)
      rw [answers_prefix K ask hj'] at h
      exact ⟨j, hj', h⟩
    · rintro ⟨j, hj, h⟩
      exact ⟨j, List.mem_range.mpr (Nat.lt_succ_iff.mpr hj), by rw [answers_prefix K ask hj]; exact h⟩

theorem targets_mono (K : X → D) {i j : Nat} (h : i ≤ j) {c : Commitment}
    (hc : c ∈ targets text digest ask declared (answers K ask i)) :
    c ∈ targets text digest ask declared (answers K ask j) := by
  rw [mem_targets] at hc ⊢
  rcases hc with ⟨k, hk, e⟩ | ⟨k, hk, e⟩ | ⟨k, hk, e⟩
  · exact .inl ⟨k, by omega, e⟩
  · exact .inr (.inl ⟨k, by omega, e⟩)
  · exact .inr (.inr ⟨k, by omega, e⟩)

theorem mem_hashed (K : X → D) (n : Nat) (x : Bytes × Commitment) :
    x ∈ hashed text digest ask (answers K ask n) ↔
      ∃ j < n, text (ask (answers K ask j)) = some x.1 ∧ digest (K (ask (answers K ask j))) = x.2 := by
  unfold hashed
  rw [List.mem_flatMap, answers_length]
  constructor
  · rintro ⟨j, hj, h⟩
    have hj' := List.mem_range.mp hj
    rw [answers_prefix K ask hj'.le, answers_getElem K ask hj'] at h
    cases ht : text (ask (answers K ask j)) with
    | none => rw [ht] at h; simp at h
    | some m =>
      rw [ht] at h
      obtain rfl := List.mem_singleton.mp h
      exact ⟨j, hj', ht, rfl⟩
  · rintro ⟨j, hj, h1, h2⟩
    refine ⟨j, List.mem_range.mpr hj, ?_⟩
    rw [answers_prefix K ask hj.le, answers_getElem K ask hj, h1]
    exact List.mem_singleton.mpr (Prod.ext rfl h2.symm)

/-- When something is asked, there is a first time. -/
theorem first_time (K : X → D) (ask : List D → X) {i : Nat} :
    ∃ k ≤ i, ask (answers K ask k) = ask (answers K ask i) ∧ ∀ j < k, ask (answers K ask j) ≠ ask (answers K ask k) := by
  classical
  have h : ∃ k, ask (answers K ask k) = ask (answers K ask i) := ⟨i, rfl⟩
  refine ⟨Nat.find h, Nat.find_min' h rfl, Nat.find_spec h, fun j hj he => Nat.find_min h hj (he.trans (Nat.find_spec h))⟩

/-- Without hits, what is asked with an answer that was come across before is asked before that, and is what is found
behind that answer. -/
theorem behind_of_not_hit {n : Nat} {K : X → D} (hno : ¬ Hit text digest ask declared n K) {s : Nat} {c : Commitment}
    (hc : c ∈ targets text digest ask declared (answers K ask s)) {i : Nat} (hi : i < n) {m : Bytes}
    (hm : text (ask (answers K ask i)) = some m) (he : digest (K (ask (answers K ask i))) = c) (hs : s ≤ n) :
    (∃ j < s, ask (answers K ask j) = ask (answers K ask i)) ∧
      behind (hashed text digest ask (answers K ask s)) c = some m := by
  obtain ⟨k, hk, e1, e2⟩ := first_time K ask (i := i)
  have hks : k < s := by
    by_contra hks
    refine hno ⟨k, by omega, e2, ?_⟩
    rw [e1, he]
    exact targets_mono K (by omega) hc
  refine ⟨⟨k, hks, e1⟩, ?_⟩
  have hmem : (m, c) ∈ hashed text digest ask (answers K ask s) :=
    (mem_hashed K s _).mpr ⟨k, hks, by rw [e1]; exact hm, by rw [e1]; exact he⟩
  unfold behind
  cases hf : (hashed text digest ask (answers K ask s)).find? fun x => decide (x.2 = c) with
  | none =>
    have := List.find?_eq_none.mp hf _ hmem
    simp at this
  | some y =>
    have hy := List.find?_some hf
    rw [decide_eq_true_iff] at hy
    obtain ⟨j, hj, g1, g2⟩ := (mem_hashed K s y).mp (List.mem_of_find?_eq_some hf)
    rw [Option.map_some]
    congr 1
    obtain ⟨l, hl, f1, f2⟩ := first_time K ask (i := j)
    by_contra hne
    have hne' : ask (answers K ask l) ≠ ask (answers K ask k) := fun h => hne (by
      rw [← f1, h, e1, hm] at g1
      exact (Option.some.inj g1).symm)
    have hKl : digest (K (ask (answers K ask l))) = c := by rw [f1, g2]; exact hy
    have hKk : digest (K (ask (answers K ask k))) = c := by rw [e1]; exact he
    rcases lt_trichotomy k l with h | rfl | h
    · exact hno ⟨l, by omega, f2, (mem_targets K l _).mpr (.inl ⟨k, h, by rw [hKl, hKk]⟩)⟩
    · exact hne' rfl
    · exact hno ⟨k, by omega, e2, (mem_targets K k _).mpr (.inl ⟨l, h, by rw [hKl, hKk]⟩)⟩

/-- Without hits, every way to a hash that was come across before ends in the leaf that is known to be behind it. -/
theorem leafBehind_of_not_hit {n : Nat} {K : X → D} (hno : ¬ Hit text digest ask declared n K)
    {hash : Bytes → Commitment} (hhash : ∀ x m, text x = some m → hash m = digest (K x)) {s : Nat} (hs : s ≤ n)
    (path : List Commitment) (index : Nat) (m : Bytes)
    (hasked : ∀ x ∈ messagesOf hash m path index, ∃ i < n, text (ask (answers K ask i)) = some x)
    {root : Commitment} (hroot : root ∈ targets text digest ask declared (answers K ask s))
    (h : Merkle.climb (nodeHash hash) path index (hash m) = root) :
    leafBehind (hashed text digest ask (answers K ask s)) path.length root index = some m := by
  induction path using List.reverseRecOn generalizing root with
  | nil =>
    obtain ⟨i, hi, e⟩ := hasked m (by simp [messagesOf])
    exact (behind_of_not_hit hno hroot hi e ((hhash _ _ e).symm.trans h) hs).2
  | append_singleton path x ih =>
    rw [climb_lastMessage] at h
    obtain ⟨i, hi, e⟩ := hasked _ (by rw [messagesOf_append]; exact List.mem_append_right _ (List.mem_singleton.mpr rfl))
    obtain ⟨⟨j, hj, e1⟩, e2⟩ := behind_of_not_hit hno hroot hi e ((hhash _ _ e).symm.trans h) hs
    have hhalf := halfOf_lastMessage index path.length
      (Merkle.climb (nodeHash hash) path index (hash m)) x
    rw [List.length_append, List.length_singleton, leafBehind, e2]
    simp only [Option.bind_eq_bind, Option.bind_some]
    rw [hhalf]
    refine ih (fun y hy => hasked y (by rw [messagesOf_append]; exact List.mem_append_left _ hy)) ?_ rfl
    rw [mem_targets]
    refine .inr (.inl ⟨j, hj, _, by rw [e1]; exact e, mem_halvesOf hhalf⟩)

end oracle

end Verif
