import Verif.Lemmas.Prog
import Verif.Lemmas.Random
import Verif.Lemmas.Bytes
import Verif.Model.Prover

/-!
# The prover as a program that talks to a transcript
-/

namespace Verif
open Spec Random Finset Proximity
variable {F T T₀ Ch X Y : Type} [Field F] [DecidableEq F]

/-- An environment with another transcript and another function for the proof of work. -/
def Env.over (env : Env F T₀) (tr : Transcript T) (K : Bytes → Commitment) : Env F T where
  ta := env.ta
  tr := tr
  toBytes := env.toBytes
  ofDigest := env.ofDigest
  hashes := env.hashes
  keccak := K

/-- A computation for every transcript and every function for the proof of work. -/
abbrev Talk (X : Type) : Type 1 :=
  ∀ T : Type, Transcript T → (Bytes → Commitment) → T → Outcome Empty (X × T)

/-- The computation is that of a program with at most `n` draws and the hashes of `M` nonces that stops with probability
at most `ε`. -/
def Rep (M n : Nat) (ε : ℚ) (f : Talk X) : Prop :=
  ∃ p : Prog (Outcome Empty X), p.Draws n ∧ p.Hashes M 0 ∧ p.stopProb ≤ ε ∧
    ∀ (T : Type) (tr : Transcript T) (K : Bytes → Commitment) t o t', p.run tr K t = some (o, t') →
      f T tr K t = o >>= fun x => .ok (x, t')

namespace Rep
variable {M n n' : Nat} {ε ε' : ℚ}

theorem congr {f f' : Talk X} (h : Rep M n ε f) (hf : ∀ T tr K t, f' T tr K t = f T tr K t) : Rep M n ε f' := by
  obtain ⟨p, h1, h2, h3, h4⟩ := h
  exact ⟨p, h1, h2, h3, fun T tr K t o t' hr => (hf T tr K t).trans (h4 T tr K t o t' hr)⟩

theorem mono {f : Talk X} (h : Rep M n ε f) (hn : n ≤ n') (hε : ε ≤ ε') : Rep M n' ε' f := by
  obtain ⟨p, h1, h2, h3, h4⟩ := h
  exact ⟨p, h1.mono hn, h2, h3.trans hε, h4⟩

theorem ret (x : X) : Rep 0 0 0 fun _ _ _ t => .ok (x, t) :=
  ⟨.ret (.ok x), trivial, trivial, le_rfl, fun T tr K t o t' h => by cases h; rfl⟩

theorem panic : Rep (X := X) 0 0 0 fun _ _ _ _ => .panic :=
  ⟨.ret .panic, trivial, trivial, le_rfl, fun T tr K t o t' h => by cases h; rfl⟩

theorem send (x : X) (b : Bytes) : Rep 0 0 0 fun _ tr _ t => .ok (x, tr.append t b) :=
  ⟨.send b (.ret (.ok x)), trivial, trivial, le_rfl, fun T tr K t o t' h => by cases h; rfl⟩

theorem any {f : Talk X} (h : Rep 0 n ε f) : Rep M n ε f := by
  obtain ⟨p, h1, h2, h3, h4⟩ := h
  exact ⟨p, h1, h2.any M 0, h3, h4⟩

/-- The two steps of a sequence. -/
theorem bind_aux {M₁ M₂ M : Nat} {f : Talk X} {g : ∀ T : Type, Transcript T → (Bytes → Commitment) → X × T →
      Outcome Empty (Y × T)}
    (hM : ∀ (p : Prog (Outcome Empty X)) (q : Outcome Empty X → Prog (Outcome Empty Y)), p.Hashes M₁ 0 →
      (∀ o, (q o).Hashes M₂ 0) → (p.bind q).Hashes M 0)
    (hf : Rep M₁ n ε f) (hε : 0 ≤ ε') (hg : ∀ x, Rep M₂ n' ε' fun T tr K t => g T tr K (x, t)) :
    Rep M (n + n') (ε + ε') fun T tr K t => f T tr K t >>= fun r => g T tr K r := by
  obtain ⟨p, h1, h2, h3, h4⟩ := hf
  choose q k1 k2 k3 k4 using hg
  let q' : Outcome Empty X → Prog (Outcome Empty Y) := fun o =>
    match o with
    | .ok x => q x
    | .err e => .ret (.err e)
    | .panic => .ret .panic
  refine ⟨p.bind q', h1.bind ?_, hM p q' h2 ?_, (Prog.stopProb_bind hε ?_).trans (by linarith), ?_⟩
  · rintro (x | e | _)
    · exact k1 x
    · exact e.elim
    · trivial
  · rintro (x | e | _)
    · exact k2 x
    · exact e.elim
    · trivial
  · rintro (x | e | _)
    · exact k3 x
    · exact e.elim
    · exact hε
  · intro T tr K t o t' hr
    rw [Prog.run_bind] at hr
    cases hp : p.run tr K t with
    | none => rw [hp] at hr; cases hr
    | some r =>
      obtain ⟨o1, t1⟩ := r
      rw [hp] at hr
      show (f T tr K t >>= fun r => g T tr K r) = _
      rw [h4 T tr K t o1 t1 hp]
      cases o1 with
      | ok x => exact k4 x T tr K t1 o t' hr
      | err e => exact e.elim
      | panic =>
        cases hr
        rfl

theorem bind {f : Talk X} {g : ∀ T : Type, Transcript T → (Bytes → Commitment) → X × T → Outcome Empty (Y × T)}
    (hf : Rep 0 n ε f) (hε : 0 ≤ ε') (hg : ∀ x, Rep M n' ε' fun T tr K t => g T tr K (x, t)) :
    Rep M (n + n') (ε + ε') fun T tr K t => f T tr K t >>= fun r => g T tr K r :=
  bind_aux (fun _ _ h1 h2 => Prog.Hashes.bind_right h1 h2) hf hε hg

theorem bind_left {f : Talk X} {g : ∀ T : Type, Transcript T → (Bytes → Commitment) → X × T → Outcome Empty (Y × T)}
    (hf : Rep M n ε f) (hε : 0 ≤ ε') (hg : ∀ x, Rep 0 n' ε' fun T tr K t => g T tr K (x, t)) :
    Rep M (n + n') (ε + ε') fun T tr K t => f T tr K t >>= fun r => g T tr K r :=
  bind_aux (fun _ _ h1 h2 => Prog.Hashes.bind_left h1 h2) hf hε hg

/-- A step that does not use the transcript. -/
theorem pre {o : Outcome Empty X} {g : ∀ T : Type, Transcript T → (Bytes → Commitment) → T → X → Outcome Empty (Y × T)}
    (hε : 0 ≤ ε) (hg : ∀ x, o = .ok x → Rep M n ε fun T tr K t => g T tr K t x) :
    Rep M n ε fun T tr K t => o >>= fun x => g T tr K t x := by
  cases o with
  | ok x => exact hg x rfl
  | err e => exact e.elim
  | panic => exact (panic.any.mono (Nat.zero_le _) hε : Rep M n ε _)

/-! ## The steps of the transcript -/

theorem challenge : Rep 0 1 0 fun _ tr _ t => .ok (tr.challenge t) :=
  ⟨.draw fun d => .ret (.ok d), ⟨le_rfl, fun _ => trivial⟩, fun _ => trivial,
    le_of_eq (by rw [Prog.stopProb, Finset.sum_eq_zero (fun (_ : Commitment) _ => by rfl), zero_div]),
    fun T tr K t o t' h => by cases h; rfl⟩

omit [DecidableEq F] in
theorem sample (env : Env F T₀) : Rep 0 1 0 fun T tr K t => .ok ((env.over tr K : Env F T).sample t) :=
  (show Rep 0 (1 + 0) (0 + 0) fun _ tr _ t => (Outcome.ok (tr.challenge t) >>= fun r => .ok (env.ofDigest r.1, r.2) :
    Outcome Empty (F × _)) from
    challenge.bind le_rfl fun d => ret (env.ofDigest d)).mono le_rfl (by norm_num)

omit [DecidableEq F] in
theorem samples (env : Env F T₀) (k : Nat) : Rep 0 k 0 fun T tr K t => .ok ((env.over tr K : Env F T).samples k t) := by
  induction k with
  | zero => exact ret []
  | succ k ih =>
    refine Rep.mono (n := 1 + (k + 0)) (ε := 0 + (0 + 0)) ?_ (by omega) (by norm_num)
    refine Rep.congr (f := fun T tr K t => Outcome.ok ((env.over tr K : Env F T).sample t) >>= fun x =>
      Outcome.ok ((env.over tr K : Env F T).samples k x.2) >>= fun r => .ok (x.1 :: r.1, r.2)) ?_ fun _ _ _ _ => rfl
    refine (sample env).bind (by norm_num) fun x => ?_
    dsimp only
    exact ih.bind le_rfl fun l => ret (x :: l)

omit [DecidableEq F] in
theorem appendField (env : Env F T₀) (x : X) (v : F) :
    Rep 0 0 0 fun T tr K t => .ok (x, (env.over tr K : Env F T).appendField t v) := send x (env.toBytes v)

/-- One element after the other. -/
theorem foldl {l : List Y} {g : ∀ T : Type, Transcript T → (Bytes → Commitment) → T → Y → T}
    (hg : ∀ y ∈ l, Rep 0 0 0 fun T tr K t => .ok ((), g T tr K t y)) :
    Rep 0 0 0 fun T tr K t => .ok ((), l.foldl (g T tr K) t) := by
  induction l with
  | nil => exact ret ()
  | cons y l ih =>
    refine Rep.mono (n := 0 + 0) (ε := 0 + 0) ?_ le_rfl (by norm_num)
    exact (show Rep _ _ _ fun T tr K t => (Outcome.ok ((), g T tr K t y) >>= fun r => .ok ((), l.foldl (g T tr K) r.2) :
      Outcome Empty (Unit × T)) from
      (hg y List.mem_cons_self).bind le_rfl fun _ => ih fun y hy => hg y (List.mem_cons_of_mem _ hy))

/-! ## The search for a point and for a nonce -/

theorem average_if {D : Type} [Fintype D] (P : D → Prop) [DecidablePred P] (c : ℚ) :
    (∑ d, if P d then c else 0) / Fintype.card D = probability D P * c := by
  rw [probability_eq, Finset.sum_ite, Finset.sum_const, Finset.sum_const_zero, add_zero, nsmul_eq_mul]
  ring

end Rep

/-- The first of at most `r` draws outside of the lists. -/
def Prog.point (ofDigest : Commitment → F) (l : List F) : Nat → Prog (Outcome Empty F)
  | 0 => .stop
  | r + 1 => .draw fun d => if ofDigest d ∈ l then point ofDigest l r else .ret (.ok (ofDigest d))

/-- The first of `k` numbers from `i` that meets the target, and the zeros of its digest. -/
def Prog.nonce (seed : Commitment) (g : Nat) : Nat → Nat → Prog (Outcome Empty (Nat × Nat))
  | 0, _ => .stop
  | k + 1, i => .hash (seed.val ++ leBytes 8 i) fun d =>
    if ¬ g ≤ trailingZeros 64 (beNat (d.val.take 8)) then nonce seed g k (i + 1)
    else .ret (.ok (i, trailingZeros 64 (beNat (d.val.take 8))))

omit [Field F] in
theorem Transcript.sampleZOod_step (tr : Transcript T) (ofDigest : Commitment → F) (lde trace : List F) (t : T) :
    tr.sampleZOod ofDigest lde trace t = if ofDigest (tr.challenge t).1 ∈ lde ++ trace
      then tr.sampleZOod ofDigest lde trace (tr.challenge t).2 else some (tr.toField ofDigest t) := by
  classical
  have h0 : (tr.toField ofDigest (tr.after 0 t)).1 = ofDigest (tr.challenge t).1 := rfl
  have hs : ∀ k, tr.after (k + 1) t = tr.after k (tr.challenge t).2 := fun k => rfl
  split
  · rename_i hm
    have hn : ¬ ((tr.toField ofDigest (tr.after 0 t)).1 ∉ lde ∧ (tr.toField ofDigest (tr.after 0 t)).1 ∉ trace) := by
      rw [h0, ← not_or, ← List.mem_append]
      exact fun h => h hm
    unfold sampleZOod
    by_cases h : ∃ k, (tr.toField ofDigest (tr.after k (tr.challenge t).2)).1 ∉ lde ∧
      (tr.toField ofDigest (tr.after k (tr.challenge t).2)).1 ∉ trace
    · have h' : ∃ k, (tr.toField ofDigest (tr.after k t)).1 ∉ lde ∧ (tr.toField ofDigest (tr.after k t)).1 ∉ trace := by
        obtain ⟨k, hk⟩ := h
        exact ⟨k + 1, by rw [hs]; exact hk⟩
      rw [dif_pos h, dif_pos h', Nat.find_comp_succ h' h hn, hs]
      congr!
    · rw [dif_neg h, dif_neg]
      rintro ⟨k, hk⟩
      cases k with
      | zero => exact hn hk
      | succ k => exact h ⟨k, by rw [← hs]; exact hk⟩
  · rename_i hm
    have h' : ∃ k, (tr.toField ofDigest (tr.after k t)).1 ∉ lde ∧ (tr.toField ofDigest (tr.after k t)).1 ∉ trace :=
      ⟨0, by rw [h0, ← not_or, ← List.mem_append]; exact hm⟩
    unfold sampleZOod
    rw [dif_pos h', (Nat.find_eq_zero h').2 (by rw [h0, ← not_or, ← List.mem_append]; exact hm)]
    rfl

theorem find_range {N n : Nat} {p : Nat → Bool} (hn : n < N) (h1 : p n = true) (h2 : ∀ j < n, p j = false) :
    (List.range N).find? p = some n := by
  rw [List.find?_range_eq_some]
  exact ⟨h1, List.mem_range.2 hn, fun j hj => by rw [h2 j hj]; rfl⟩

namespace Rep

theorem point (env : Env F T₀) (lde trace : List F) (r : Nat) :
    Rep 0 r (probability Commitment (fun d => env.ofDigest d ∈ lde ++ trace) ^ r) fun T tr K t =>
      Outcome.ofOptionUnwrap ((env.over tr K : Env F T).tr.sampleZOod env.ofDigest lde trace t) := by
  refine ⟨Prog.point env.ofDigest (lde ++ trace) r, ?_, ?_, ?_, ?_⟩
  · induction r with
    | zero => trivial
    | succ r ih =>
      refine ⟨Nat.le_add_left 1 r, fun d => ?_⟩
      dsimp only
      split
      · exact ih
      · trivial
  · induction r with
    | zero => trivial
    | succ r ih =>
      intro d
      dsimp only
      split
      · exact ih
      · trivial
  · induction r with
    | zero => exact le_of_eq (pow_zero _).symm
    | succ r ih =>
      rw [Prog.point, Prog.stopProb, pow_succ', ← average_if]
      refine div_le_div_of_nonneg_right (Finset.sum_le_sum fun d _ => ?_) (Nat.cast_nonneg _)
      split
      · exact ih
      · exact le_rfl
  · induction r with
    | zero => intro T tr K t o t' h; cases h
    | succ r ih =>
      intro T tr K t o t' h
      rw [Prog.point, Prog.run] at h
      dsimp only
      rw [Transcript.sampleZOod_step]
      show (Outcome.ofOptionUnwrap (if env.ofDigest (tr.challenge t).1 ∈ lde ++ trace then _ else _)) = _
      split at h
      · rename_i hm
        rw [if_pos hm]
        exact ih T tr K _ o t' h
      · rename_i hm
        rw [if_neg hm]
        cases h
        rfl

theorem label_message (seed : Commitment) {i : Nat} (hi : i < 256 ^ 8) :
    Prog.label (seed.val ++ leBytes 8 i) = i := by
  unfold Prog.label
  rw [List.drop_left' seed.property]
  exact leNat_leBytes 8 i hi

theorem nonce (seed : Commitment) {g : Nat} {m : Nat} (hm : m < 2 ^ 64) :
    Rep m 0 (probability Commitment (fun d => ¬ g ≤ trailingZeros 64 (beNat (d.val.take 8))) ^ m) fun _ _ K t =>
      Outcome.ofOptionUnwrap (Grinding.generateNonce K seed g) >>= fun n =>
        .ok ((n, Grinding.leadingZerosOf K seed n), t) := by
  have hm8 : m < 256 ^ 8 := hm.trans_eq (by norm_num)
  refine ⟨Prog.nonce seed g m 0, ?_, ?_, ?_, ?_⟩
  · suffices h : ∀ i, (Prog.nonce seed g m i).Draws 0 from h 0
    clear hm hm8
    intro i
    induction m generalizing i with
    | zero => trivial
    | succ k ih =>
      intro d
      dsimp only
      split
      · exact ih _
      · trivial
  · suffices h : ∀ k i, i + k ≤ m → (Prog.nonce seed g k i).Hashes m i from h m 0 (by omega)
    intro k
    induction k with
    | zero => intro i hi; trivial
    | succ k ih =>
      intro i hi
      have hl := label_message seed (i := i) (by omega)
      refine ⟨?_, by rw [hl], by rw [hl]; omega, fun d => ?_⟩
      · rw [List.length_append, seed.property, length_leBytes]
      · rw [hl]
        dsimp only
        split
        · exact ih _ (by omega)
        · trivial
  · suffices h : ∀ i, (Prog.nonce seed g m i).stopProb
        ≤ probability Commitment (fun d => ¬ g ≤ trailingZeros 64 (beNat (d.val.take 8))) ^ m from h 0
    clear hm hm8
    intro i
    induction m generalizing i with
    | zero => exact le_of_eq (pow_zero _).symm
    | succ k ih =>
      rw [Prog.nonce, Prog.stopProb, pow_succ', ← average_if]
      refine div_le_div_of_nonneg_right (Finset.sum_le_sum fun d _ => ?_) (Nat.cast_nonneg _)
      split
      · exact ih _
      · exact le_rfl
  · intro T tr K t o t' h
    suffices hs : ∀ k i, i + k ≤ m → (∀ j < i, ¬ g ≤ Grinding.leadingZerosOf K seed j) →
        (Prog.nonce seed g k i).run tr K t = some (o, t') →
        ∃ n, o = .ok (n, Grinding.leadingZerosOf K seed n) ∧ t' = t ∧ n < m ∧ g ≤ Grinding.leadingZerosOf K seed n ∧
          ∀ j < n, ¬ g ≤ Grinding.leadingZerosOf K seed j by
      obtain ⟨n, rfl, rfl, h1, h2, h3⟩ := hs m 0 (by omega) (fun j hj => by omega) h
      have : Grinding.generateNonce K seed g = some n := by
        unfold Grinding.generateNonce
        exact find_range (by omega) (decide_eq_true h2) fun j hj => decide_eq_false (h3 j hj)
      dsimp only
      rw [this]
      rfl
    intro k
    induction k with
    | zero => intro i hi hj h; cases h
    | succ k ih =>
      intro i hi hj h
      rw [Prog.nonce, Prog.run] at h
      split at h
      · rename_i hc
        refine ih (i + 1) (by omega) (fun j hj' => ?_) h
        rcases Nat.lt_succ_iff_lt_or_eq.1 hj' with h1 | rfl
        · exact hj j h1
        · exact hc
      · rename_i hc
        cases h
        exact ⟨i, rfl, rfl, by omega, not_not.1 hc, hj⟩

end Rep
end Verif
