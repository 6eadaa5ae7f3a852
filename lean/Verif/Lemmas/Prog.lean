import Verif.Lemmas.Tree
import Verif.Spec.Oracle

/-!
# Programs that talk to a transcript

The prover and the verifier use the transcript one step after the other. A `Prog` is such a sequence of steps, for any
transcript and any function for the proof of work.
-/

namespace Verif
open Spec Random Finset Proximity

/-- A program that sends bytes to the transcript, draws challenges and hashes messages for the proof of work. -/
inductive Prog (X : Type) : Type
  | ret (x : X)
  | stop
  | send (b : Bytes) (k : Prog X)
  | draw (k : Commitment → Prog X)
  | hash (m : Bytes) (k : Commitment → Prog X)

namespace Prog
variable {X Y T : Type}

/-- The run with a transcript and a hash function: the result and the state of the transcript, if it does not stop. -/
def run (tr : Transcript T) (K : Bytes → Commitment) : Prog X → T → Option (X × T)
  | ret x, t => some (x, t)
  | stop, _ => none
  | send b k, t => k.run tr K (tr.append t b)
  | draw k, t => (k (tr.challenge t).1).run tr K (tr.challenge t).2
  | hash m k, t => (k (K m)).run tr K t

def bind : Prog X → (X → Prog Y) → Prog Y
  | ret x, g => g x
  | stop, _ => stop
  | send b k, g => send b (k.bind g)
  | draw k, g => draw fun d => (k d).bind g
  | hash m k, g => hash m fun d => (k d).bind g

theorem run_bind (tr : Transcript T) (K : Bytes → Commitment) (p : Prog X) (g : X → Prog Y) (t : T) :
    (p.bind g).run tr K t = (p.run tr K t).bind fun r => (g r.1).run tr K r.2 := by
  induction p generalizing t with
  | ret x => rfl
  | stop => rfl
  | send b k ih => exact ih _
  | draw k ih => exact ih _ _
  | hash m k ih => exact ih _ _

/-- At most `n` challenges are drawn. -/
def Draws : Prog X → Nat → Prop
  | ret _, _ => True
  | stop, _ => True
  | send _ k, n => k.Draws n
  | draw k, n => 1 ≤ n ∧ ∀ d, (k d).Draws (n - 1)
  | hash _ k, n => ∀ d, (k d).Draws n

/-- The number at the end of a message of the proof of work. -/
def label (m : Bytes) : Nat := leNat (m.drop 32)

/-- The messages of the proof of work have 40 bytes and end with increasing numbers from `i` to below `M`. -/
def Hashes (M : Nat) : Prog X → Nat → Prop
  | ret _, _ => True
  | stop, _ => True
  | send _ k, i => k.Hashes M i
  | draw k, i => ∀ d, (k d).Hashes M i
  | hash m k, i => m.length = 40 ∧ i ≤ label m ∧ label m < M ∧ ∀ d, (k d).Hashes M (label m + 1)

theorem Draws.mono {p : Prog X} {n n' : Nat} (h : p.Draws n) (hn : n ≤ n') : p.Draws n' := by
  induction p generalizing n n' with
  | ret x => trivial
  | stop => trivial
  | send b k ih => exact ih h hn
  | draw k ih => exact ⟨h.1.trans hn, fun d => ih d (h.2 d) (by omega)⟩
  | hash m k ih => exact fun d => ih d (h d) hn

theorem Draws.bind {p : Prog X} {g : X → Prog Y} {n m : Nat} (h : p.Draws n) (hg : ∀ x, (g x).Draws m) :
    (p.bind g).Draws (n + m) := by
  induction p generalizing n with
  | ret x => exact (hg x).mono (by omega)
  | stop => trivial
  | send b k ih => exact ih h
  | draw k ih =>
    obtain ⟨h1, h2⟩ := h
    refine ⟨by omega, fun d => ?_⟩
    have := ih d (h2 d)
    rwa [show n + m - 1 = n - 1 + m by omega]
  | hash k m ih => exact fun d => ih d (h d)

theorem Hashes.any {p : Prog X} {i : Nat} (h : p.Hashes 0 i) (M j : Nat) : p.Hashes M j := by
  induction p generalizing i j with
  | ret x => trivial
  | stop => trivial
  | send b k ih => exact ih h _
  | draw k ih => exact fun d => ih d (h d) _
  | hash m k ih => exact absurd h.2.2.1 (by omega)

theorem Hashes.bind_left {p : Prog X} {g : X → Prog Y} {M i : Nat} (h : p.Hashes M i) (hg : ∀ x, (g x).Hashes 0 0) :
    (p.bind g).Hashes M i := by
  induction p generalizing i with
  | ret x => exact (hg x).any _ _
  | stop => trivial
  | send b k ih => exact ih h
  | draw k ih => exact fun d => ih d (h d)
  | hash m k ih => exact ⟨h.1, h.2.1, h.2.2.1, fun d => ih d (h.2.2.2 d)⟩

theorem Hashes.bind_right {p : Prog X} {g : X → Prog Y} {M i j : Nat} (h : p.Hashes 0 j) (hg : ∀ x, (g x).Hashes M i) :
    (p.bind g).Hashes M i := by
  induction p generalizing j with
  | ret x => exact hg x
  | stop => trivial
  | send b k ih => exact ih h
  | draw k ih => exact fun d => ih d (h d)
  | hash m k ih => exact absurd h.2.2.1 (by omega)

/-! ## The probability to stop -/

/-- The probability to stop when all answers are independent draws. -/
noncomputable def stopProb : Prog X → ℚ
  | ret _ => 0
  | stop => 1
  | send _ k => k.stopProb
  | draw k => (∑ d, (k d).stopProb) / Fintype.card Commitment
  | hash _ k => (∑ d, (k d).stopProb) / Fintype.card Commitment

theorem average_add {D : Type} [Fintype D] [Nonempty D] {f g : D → ℚ} {ε : ℚ} (h : ∀ d, f d ≤ g d + ε) :
    (∑ d, f d) / Fintype.card D ≤ (∑ d, g d) / Fintype.card D + ε := by
  have hc : (0 : ℚ) < Fintype.card D := by exact_mod_cast Fintype.card_pos
  rw [div_le_iff₀ hc, add_mul, div_mul_cancel₀ _ hc.ne']
  refine (Finset.sum_le_sum fun d _ => h d).trans ?_
  rw [Finset.sum_add_distrib, Finset.sum_const, Finset.card_univ, nsmul_eq_mul, mul_comm]

theorem commitment_nonempty : Nonempty Commitment := ⟨⟨List.replicate 32 0, List.length_replicate⟩⟩

theorem stopProb_nonneg (p : Prog X) : 0 ≤ p.stopProb := by
  induction p with
  | ret x => exact le_rfl
  | stop => exact zero_le_one
  | send b k ih => exact ih
  | draw k ih => exact div_nonneg (Finset.sum_nonneg fun d _ => ih d) (Nat.cast_nonneg _)
  | hash m k ih => exact div_nonneg (Finset.sum_nonneg fun d _ => ih d) (Nat.cast_nonneg _)

theorem stopProb_bind {p : Prog X} {g : X → Prog Y} {ε : ℚ} (hε : 0 ≤ ε) (hg : ∀ x, (g x).stopProb ≤ ε) :
    (p.bind g).stopProb ≤ p.stopProb + ε := by
  have := commitment_nonempty
  induction p with
  | ret x => exact (hg x).trans (le_of_eq (zero_add _).symm)
  | stop => exact le_add_of_nonneg_right hε
  | send b k ih => exact ih
  | draw k ih => exact average_add ih
  | hash m k ih => exact average_add ih

/-! ## The length of the messages -/

/-- A bound for the length of the messages to the transcript, `n` bytes being collected. -/
noncomputable def width : Prog X → Nat → Nat
  | ret _, _ => 0
  | stop, _ => 0
  | send b k, n => k.width (n + b.length)
  | draw k, n => max n ((univ : Finset Commitment).sup fun d => (k d).width 32)
  | hash _ k, n => (univ : Finset Commitment).sup fun d => (k d).width n

/-! ## The tree of the questions of a program -/

/-- A question: the message and the place of its answer among the drawn digests. -/
abbrev Question (L N M : Nat) : Type := (Message L ⊕ WorkMessage) × (Fin N ⊕ Fin M)

open Classical in
/-- The tree of the questions of a program, with `t` collected, the messages `used` asked before, `n` challenges drawn and
numbers of the proof of work from `i` on. The result is `none` when a question would be asked again. -/
noncomputable def tree (L N M : Nat) : Prog X → Bytes → List Bytes → Nat → Nat →
    Tree (Question L N M) Commitment (Option (Option X))
  | ret x, _, _, _, _ => .leaf (some (some x))
  | stop, _, _, _, _ => .leaf (some none)
  | send b k, t, used, n, i => k.tree L N M (t ++ b) used n i
  | draw k, t, used, n, i =>
    if h : t.length ≤ L ∧ n < N ∧ t ∉ used then
      .node (.inl ⟨t, h.1⟩, .inl ⟨n, h.2.1⟩) fun d => (k d).tree L N M d.val (t :: used) (n + 1) i
    else .leaf none
  | hash m k, t, used, n, i =>
    if h : m.length = 40 ∧ label m < M ∧ i ≤ label m then
      .node (.inr ⟨m, h.1⟩, .inr ⟨label m, h.2.1⟩) fun d => (k d).tree L N M t used n (label m + 1)
    else .leaf none

variable {L N M : Nat}

theorem tree_fresh_messages (p : Prog X) (t : Bytes) (used : List Bytes) (n i : Nat) (S : Set (Message L ⊕ WorkMessage))
    (h1 : ∀ m, .inl m ∈ S → m.val ∈ used) (h2 : ∀ m, .inr m ∈ S → label m.val < i) :
    (p.tree L N M t used n i).Fresh Prod.fst S := by
  induction p generalizing t used n i S with
  | ret x => trivial
  | stop => trivial
  | send b k ih => exact ih _ _ _ _ _ h1 h2
  | draw k ih =>
    rw [tree]
    split
    · rename_i h
      refine ⟨fun hm => h.2.2 (h1 _ hm), fun d => ih d _ _ _ _ _ (fun m hm => ?_) fun m hm => ?_⟩
      · rcases hm with hm | hm
        · rw [Sum.inl.inj hm]
          exact List.mem_cons_self ..
        · exact List.mem_cons_of_mem _ (h1 m hm)
      · rcases hm with hm | hm
        · cases hm
        · exact h2 m hm
    · trivial
  | hash m k ih =>
    rw [tree]
    split
    · rename_i h
      refine ⟨fun hm => absurd (h2 _ hm) (by show ¬ label m < i; omega), fun d => ih d _ _ _ _ _ (fun x hx => ?_) fun x hx => ?_⟩
      · rcases hx with hx | hx
        · cases hx
        · exact h1 x hx
      · rcases hx with hx | hx
        · rw [Sum.inr.inj hx]
          exact Nat.lt_succ_self _
        · exact (h2 x hx).trans_le (by omega)
    · trivial

theorem tree_fresh_places (p : Prog X) (t : Bytes) (used : List Bytes) (n i : Nat) (S : Set (Fin N ⊕ Fin M))
    (h1 : ∀ m, .inl m ∈ S → m.val < n) (h2 : ∀ m, .inr m ∈ S → m.val < i) :
    (p.tree L N M t used n i).Fresh Prod.snd S := by
  induction p generalizing t used n i S with
  | ret x => trivial
  | stop => trivial
  | send b k ih => exact ih _ _ _ _ _ h1 h2
  | draw k ih =>
    rw [tree]
    split
    · rename_i h
      refine ⟨fun hm => absurd (h1 _ hm) (lt_irrefl n), fun d => ih d _ _ _ _ _ (fun m hm => ?_) fun m hm => ?_⟩
      · rcases hm with hm | hm
        · rw [Sum.inl.inj hm]
          exact Nat.lt_succ_self n
        · exact (h1 m hm).trans (Nat.lt_succ_self n)
      · rcases hm with hm | hm
        · cases hm
        · exact h2 m hm
    · trivial
  | hash m k ih =>
    rw [tree]
    split
    · rename_i h
      refine ⟨fun hm => absurd (h2 _ hm) (by show ¬ label m < i; omega), fun d => ih d _ _ _ _ _ (fun x hx => ?_) fun x hx => ?_⟩
      · rcases hx with hx | hx
        · cases hx
        · exact h1 x hx
      · rcases hx with hx | hx
        · rw [Sum.inr.inj hx]
          exact Nat.lt_succ_self _
        · exact (h2 x hx).trans_le (by omega)
    · trivial

theorem tree_eval_messages {F T' : Type} [Field F] (env : Env F T') (H : Message L → Commitment)
    (K : WorkMessage → Commitment) (p : Prog X) (t : Bytes) (used : List Bytes) (n i : Nat) {o : Option X}
    (h : (p.tree L N M t used n i).eval Prod.fst (Sum.elim H K) = some o) :
    (p.run (hashing env H K).tr (hashing env H K).keccak t).map Prod.fst = o := by
  induction p generalizing t used n i with
  | ret x => exact Option.some.inj h
  | stop => exact Option.some.inj h
  | send b k ih => exact ih _ _ _ _ h
  | draw k ih =>
    rw [tree] at h
    split at h
    · rename_i hc
      have hd : ((hashing env H K).tr.challenge t) = (H ⟨t, hc.1⟩, (H ⟨t, hc.1⟩).val) := by
        show (let digest := if h : t.length ≤ L then H ⟨t, h⟩ else env.keccak t; (digest, digest.val)) = _
        rw [dif_pos hc.1]
      rw [run, hd]
      exact ih _ _ _ _ _ h
    · cases h
  | hash m k ih =>
    rw [tree] at h
    split at h
    · rename_i hc
      have hd : (hashing env H K).keccak m = K ⟨m, hc.1⟩ := dif_pos hc.1
      rw [run, hd]
      exact ih _ _ _ _ _ h
    · cases h

theorem tree_eval_places {tr : Transcript Nat} {K : Bytes → Commitment} {δ : Fin N → Commitment} {κ : Fin M → Commitment}
    (h1 : ∀ n b, tr.append n b = n) (h2 : ∀ n (h : n < N), tr.challenge n = (δ ⟨n, h⟩, n + 1))
    (h3 : ∀ m (h : label m < M), K m = κ ⟨label m, h⟩) (p : Prog X) (t : Bytes) (used : List Bytes) (n i : Nat)
    {o : Option X} (h : (p.tree L N M t used n i).eval Prod.snd (Sum.elim δ κ) = some o) :
    (p.run tr K n).map Prod.fst = o := by
  induction p generalizing t used n i with
  | ret x => exact Option.some.inj h
  | stop => exact Option.some.inj h
  | send b k ih =>
    rw [run, h1]
    exact ih _ _ _ _ h
  | draw k ih =>
    rw [tree] at h
    split at h
    · rename_i hc
      rw [run, h2 n hc.2.1]
      exact ih _ _ _ _ _ h
    · cases h
  | hash m k ih =>
    rw [tree] at h
    split at h
    · rename_i hc
      rw [run, h3 m hc.2.1]
      exact ih _ _ _ _ _ h
    · cases h

/-! ## Collisions -/

theorem prob_nonneg {C D Z : Type} [Fintype D] (P : Z → Prop) (t : Tree C D Z) : 0 ≤ t.prob P := by
  induction t with
  | leaf x => rw [Tree.prob]; split <;> norm_num
  | node c k ih => exact div_nonneg (Finset.sum_nonneg fun d _ => ih d) (by positivity)

theorem prob_le_one {C D Z : Type} [Fintype D] (P : Z → Prop) (t : Tree C D Z) : t.prob P ≤ 1 := by
  induction t with
  | leaf x => rw [Tree.prob]; split <;> norm_num
  | node c k ih =>
    refine div_le_one_of_le₀ ((Finset.sum_le_sum fun d _ => ih d).trans ?_) (by positivity)
    simp

/-- An average of values that are below `B` except for the members of a list. -/
theorem average_le {D : Type} [Fintype D] [Nonempty D] {val : D → Bytes} (hval : Function.Injective val) (l : List Bytes)
    {B : ℚ} (hB : 0 ≤ B) {f : D → ℚ} (h1 : ∀ d, f d ≤ 1) (h2 : ∀ d, val d ∉ l → f d ≤ B) :
    (∑ d, f d) / Fintype.card D ≤ B + l.length / Fintype.card D := by
  classical
  have hc : (0 : ℚ) < Fintype.card D := by exact_mod_cast Fintype.card_pos
  have h3 : ∀ d, f d ≤ B + if val d ∈ l then 1 else 0 := fun d => by
    split
    · exact (h1 d).trans (by linarith)
    · rename_i h
      exact (h2 d h).trans (by linarith)
  have h4 : ((univ : Finset D).filter fun d => val d ∈ l).card ≤ l.length := by
    refine le_trans ?_ l.toFinset_card_le
    refine Finset.card_le_card_of_injOn val (fun d hd => ?_) fun d _ e _ h => hval h
    simpa using hd
  rw [div_le_iff₀ hc, add_mul, div_mul_cancel₀ _ hc.ne']
  refine (Finset.sum_le_sum fun d _ => h3 d).trans ?_
  rw [Finset.sum_add_distrib, Finset.sum_const, Finset.card_univ, nsmul_eq_mul, mul_comm, Finset.sum_boole]
  exact add_le_add le_rfl (by exact_mod_cast h4)

/-- A message is asked again only when a digest is the beginning of an earlier message. -/
theorem tree_collision (p : Prog X) (t : Bytes) (used : List Bytes) (n i m : Nat) (hd : p.Draws m) (hn : n + m ≤ N)
    (hh : p.Hashes M i) (hL : p.width t.length ≤ L)
    (hu : used = [] ∨ 32 ≤ t.length ∧ ∀ x ∈ used, x.take 32 ≠ t.take 32) :
    (p.tree L N M t used n i).prob (· = none)
      ≤ (m * used.length + m * (m + 1) / 2) / Fintype.card Commitment := by
  have := commitment_nonempty
  induction p generalizing t used n i m with
  | ret x =>
    rw [tree, Tree.prob, if_neg (by simp)]
    positivity
  | stop =>
    rw [tree, Tree.prob, if_neg (by simp)]
    positivity
  | send b k ih =>
    refine ih _ _ _ _ _ hd hn hh (by rwa [List.length_append]) ?_
    rcases hu with hu | ⟨h1, h2⟩
    · exact .inl hu
    · refine .inr ⟨by rw [List.length_append]; omega, fun x hx => ?_⟩
      rw [List.take_append_of_le_length h1]
      exact h2 x hx
  | draw k ih =>
    obtain ⟨hm, hd⟩ := hd
    obtain ⟨m, rfl⟩ : ∃ m', m = m' + 1 := ⟨m - 1, by omega⟩
    rw [Nat.add_sub_cancel] at hd
    have hL1 : t.length ≤ L := (le_max_left _ _).trans hL
    have hL2 : ∀ d : Commitment, (k d).width 32 ≤ L := fun d =>
      ((Finset.le_sup (f := fun d => (k d).width 32) (mem_univ d)).trans (le_max_right _ _)).trans hL
    have hnot : t ∉ used := by
      rcases hu with rfl | ⟨-, h2⟩
      · simp
      · exact fun hm => h2 t hm rfl
    rw [tree, dif_pos ⟨hL1, by omega, hnot⟩, Tree.prob]
    refine (average_le (val := Subtype.val) Subtype.val_injective ((t :: used).map (·.take 32)) (B := (m * (used.length + 1) + m * (m + 1) / 2)
      / Fintype.card Commitment) (by positivity) (fun d => prob_le_one _ _) fun d hdl => ?_).trans (le_of_eq ?_)
    · have := ih d d.val (t :: used) (n + 1) i m (hd d) (by omega) (hh d) (by rw [d.property]; exact hL2 d)
        (.inr ⟨d.property.ge, fun x hx e => hdl ?_⟩)
      · rwa [List.length_cons, Nat.cast_add, Nat.cast_one] at this
      · rw [List.take_of_length_le (le_of_eq d.property)] at e
        exact e ▸ List.mem_map_of_mem hx
    · rw [List.length_map, List.length_cons]
      push_cast
      ring
  | hash c k ih =>
    obtain ⟨h1, h2, h3, h4⟩ := hh
    rw [tree, dif_pos ⟨h1, h3, h2⟩, Tree.prob]
    refine (average_le (val := Subtype.val) Subtype.val_injective [] (by positivity) (fun d => prob_le_one _ _) fun d _ =>
      ih d t used n _ m (hd d) hn (h4 d) ?_ hu).trans (by rw [List.length_nil, Nat.cast_zero, zero_div, add_zero])
    exact (Finset.le_sup (f := fun d => (k d).width t.length) (mem_univ d)).trans hL

/-- The answers of random hash functions to a program are independent draws, up to collisions. -/
theorem transfer {F T' : Type} [Field F] (env : Env F T') {p : Prog X} (hd : p.Draws N) (hh : p.Hashes M 0)
    (hL : p.width 0 ≤ L) (B : Option X → Prop) {tr : (Fin N → Commitment) → (Fin M → Commitment) → Transcript Nat}
    {K : (Fin N → Commitment) → (Fin M → Commitment) → Bytes → Commitment} (h1 : ∀ δ κ n b, (tr δ κ).append n b = n)
    (h2 : ∀ δ κ n (h : n < N), (tr δ κ).challenge n = (δ ⟨n, h⟩, n + 1))
    (h3 : ∀ δ κ m (h : label m < M), K δ κ m = κ ⟨label m, h⟩) :
    probability ((Message L → Commitment) × (WorkMessage → Commitment))
        (fun ω => B ((p.run (hashing env ω.1 ω.2).tr (hashing env ω.1 ω.2).keccak []).map Prod.fst))
      ≤ probability ((Fin N → Commitment) × (Fin M → Commitment))
          (fun ω => B ((p.run (tr ω.1 ω.2) (K ω.1 ω.2) 0).map Prod.fst))
        + N * (N + 1) / 2 / Fintype.card Commitment := by
  classical
  have := commitment_nonempty
  let Q : Option (Option X) → Prop := fun o => ∀ x, o = some x → B x
  have e1 := Tree.probability_eval Prod.fst Q (p.tree L N M [] [] 0 0) (S := ∅)
    (tree_fresh_messages p [] [] 0 0 ∅ (fun _ h => h.elim) fun _ h => h.elim)
  have e2 := Tree.probability_eval Prod.snd Q (p.tree L N M [] [] 0 0) (S := ∅)
    (tree_fresh_places p [] [] 0 0 ∅ (fun _ h => h.elim) fun _ h => h.elim)
  have e3 := Tree.probability_eval Prod.snd (· = none) (p.tree L N M [] [] 0 0) (S := ∅)
    (tree_fresh_places p [] [] 0 0 ∅ (fun _ h => h.elim) fun _ h => h.elim)
  have e4 := tree_collision (L := L) (N := N) (M := M) p [] [] 0 0 N hd (by omega) hh hL (.inl rfl)
  rw [List.length_nil, Nat.cast_zero, mul_zero, zero_add] at e4
  rw [← probability_equiv (Equiv.sumArrowEquivProdArrow (Message L) WorkMessage Commitment),
    ← probability_equiv (Equiv.sumArrowEquivProdArrow (Fin N) (Fin M) Commitment)]
  refine (probability_mono (Q := fun f => Q ((p.tree L N M [] [] 0 0).eval Prod.fst f)) fun f hf x hx => ?_).trans ?_
  · have := tree_eval_messages env (f ∘ Sum.inl) (f ∘ Sum.inr) p [] [] 0 0 (o := x)
      (by rw [Sum.elim_comp_inl_inr]; exact hx)
    rw [← this]
    exact hf
  · rw [e1, ← e2]
    refine (probability_mono (Q := fun f => B ((p.run (tr (f ∘ Sum.inl) (f ∘ Sum.inr)) (K (f ∘ Sum.inl) (f ∘ Sum.inr)) 0).map
      Prod.fst) ∨ (p.tree L N M [] [] 0 0).eval Prod.snd f = none) fun f hf => ?_).trans ?_
    · cases ho : (p.tree L N M [] [] 0 0).eval Prod.snd f with
      | none => exact .inr rfl
      | some o =>
        left
        have := tree_eval_places (h1 (f ∘ Sum.inl) (f ∘ Sum.inr)) (h2 (f ∘ Sum.inl) (f ∘ Sum.inr))
          (h3 (f ∘ Sum.inl) (f ∘ Sum.inr)) p [] [] 0 0 (o := o) (by rw [Sum.elim_comp_inl_inr]; exact ho)
        rw [this]
        exact hf o ho
    · refine (probability_or _ _).trans (add_le_add le_rfl ?_)
      rw [e3]
      exact e4

/-! ## The probability to stop, for drawn digests -/

open Classical in
/-- The tree of the places of the answers. -/
noncomputable def places (N M : Nat) : Prog X → Nat → Nat → Tree (Fin N ⊕ Fin M) Commitment (Option X)
  | ret x, _, _ => .leaf (some x)
  | stop, _, _ => .leaf none
  | send _ k, n, i => k.places N M n i
  | draw k, n, i => if h : n < N then .node (.inl ⟨n, h⟩) fun d => (k d).places N M (n + 1) i else .leaf none
  | hash m k, n, i =>
    if h : label m < M ∧ i ≤ label m then
      .node (.inr ⟨label m, h.1⟩) fun d => (k d).places N M n (label m + 1)
    else .leaf none

theorem places_fresh (p : Prog X) (n i : Nat) (S : Set (Fin N ⊕ Fin M))
    (h1 : ∀ m, .inl m ∈ S → m.val < n) (h2 : ∀ m, .inr m ∈ S → m.val < i) : (p.places N M n i).Fresh id S := by
  induction p generalizing n i S with
  | ret x => trivial
  | stop => trivial
  | send b k ih => exact ih _ _ _ h1 h2
  | draw k ih =>
    rw [places]
    split
    · refine ⟨fun hm => absurd (h1 _ hm) (lt_irrefl n), fun d => ih d _ _ _ (fun m hm => ?_) fun m hm => ?_⟩
      · rcases hm with hm | hm
        · rw [Sum.inl.inj hm]
          exact Nat.lt_succ_self n
        · exact (h1 m hm).trans (Nat.lt_succ_self n)
      · rcases hm with hm | hm
        · cases hm
        · exact h2 m hm
    · trivial
  | hash m k ih =>
    rw [places]
    split
    · rename_i h
      refine ⟨fun hm => absurd (h2 _ hm) (by show ¬ label m < i; omega), fun d => ih d _ _ _ (fun x hx => ?_) fun x hx => ?_⟩
      · rcases hx with hx | hx
        · cases hx
        · exact h1 x hx
      · rcases hx with hx | hx
        · rw [Sum.inr.inj hx]
          exact Nat.lt_succ_self _
        · exact (h2 x hx).trans_le (by omega)
    · trivial

theorem places_eval {tr : Transcript Nat} {K : Bytes → Commitment} {δ : Fin N → Commitment} {κ : Fin M → Commitment}
    (h1 : ∀ n b, tr.append n b = n) (h2 : ∀ n (h : n < N), tr.challenge n = (δ ⟨n, h⟩, n + 1))
    (h3 : ∀ m (h : label m < M), K m = κ ⟨label m, h⟩) (p : Prog X) (n i : Nat)
    (h : p.run tr K n = none) : (p.places N M n i).eval id (Sum.elim δ κ) = none := by
  induction p generalizing n i with
  | ret x => cases h
  | stop => rfl
  | send b k ih =>
    rw [run, h1] at h
    exact ih _ _ h
  | draw k ih =>
    rw [places]
    split
    · rename_i hc
      rw [run, h2 n hc] at h
      exact ih _ _ _ h
    · rfl
  | hash m k ih =>
    rw [places]
    split
    · rename_i hc
      rw [run, h3 m hc.1] at h
      exact ih _ _ _ h
    · rfl

theorem places_prob (p : Prog X) (n i m : Nat) (hd : p.Draws m) (hn : n + m ≤ N) (hh : p.Hashes M i) :
    (p.places N M n i).prob (· = none) = p.stopProb := by
  induction p generalizing n i m with
  | ret x =>
    rw [places, Tree.prob, if_neg (by simp)]
    rfl
  | stop =>
    rw [places, Tree.prob, if_pos rfl]
    rfl
  | send b k ih => exact ih _ _ _ hd hn hh
  | draw k ih =>
    obtain ⟨hm, hd⟩ := hd
    rw [places, dif_pos (by omega), Tree.prob]
    exact congrArg (· / (Fintype.card Commitment : ℚ)) (Finset.sum_congr rfl fun d _ =>
      ih d _ _ (m - 1) (hd d) (by omega) (hh d))
  | hash c k ih =>
    obtain ⟨h1, h2, h3, h4⟩ := hh
    rw [places, dif_pos ⟨h3, h2⟩, Tree.prob]
    exact congrArg (· / (Fintype.card Commitment : ℚ)) (Finset.sum_congr rfl fun d _ =>
      ih d _ _ m (hd d) hn (h4 d))

/-- The probability that a program stops on drawn digests. -/
theorem probability_stop {p : Prog X} (hd : p.Draws N) (hh : p.Hashes M 0)
    {tr : (Fin N → Commitment) → (Fin M → Commitment) → Transcript Nat}
    {K : (Fin N → Commitment) → (Fin M → Commitment) → Bytes → Commitment} (h1 : ∀ δ κ n b, (tr δ κ).append n b = n)
    (h2 : ∀ δ κ n (h : n < N), (tr δ κ).challenge n = (δ ⟨n, h⟩, n + 1))
    (h3 : ∀ δ κ m (h : label m < M), K δ κ m = κ ⟨label m, h⟩) :
    probability ((Fin N → Commitment) × (Fin M → Commitment)) (fun ω => p.run (tr ω.1 ω.2) (K ω.1 ω.2) 0 = none)
      ≤ p.stopProb := by
  have := commitment_nonempty
  rw [← places_prob (N := N) (M := M) p 0 0 N hd (by omega) hh, ← Tree.probability_eval id _ _ (places_fresh p 0 0 ∅
    (fun _ h => h.elim) fun _ h => h.elim), ← probability_equiv (Equiv.sumArrowEquivProdArrow (Fin N) (Fin M) Commitment)]
  refine probability_mono fun f hf => ?_
  have := places_eval (h1 (f ∘ Sum.inl) (f ∘ Sum.inr)) (h2 (f ∘ Sum.inl) (f ∘ Sum.inr))
    (h3 (f ∘ Sum.inl) (f ∘ Sum.inr)) p 0 0 hf
  rwa [Sum.elim_comp_inl_inr] at this

end Prog
end Verif
