import Verif.Spec.Heard
import Verif.Props.StarkSound
import Verif.Props.Derivation
import Verif.Props.Grinding

/-!
# Replaying the messages of a proof
-/

namespace Verif
open Spec
variable {T Ch : Type} {env : Env FE T}

theorem after_succ' (tr : Transcript T) (n : Nat) (t : T) : tr.after (n + 1) t = (tr.challenge (tr.after n t)).2 := by
  induction n generalizing t with
  | zero => rfl
  | succ n ih => exact ih _

theorem after_add (tr : Transcript T) (m n : Nat) (t : T) : tr.after (m + n) t = tr.after n (tr.after m t) := by
  induction n with
  | zero => rfl
  | succ n ih => rw [← Nat.add_assoc, after_succ', after_succ', ih]

theorem digests_eq (tr : Transcript T) (n : Nat) (t : T) :
    digests tr n t = List.ofFn fun i : Fin n => (tr.challenge (tr.after i t)).1 := by
  induction n generalizing t with
  | zero => rfl
  | succ n ih =>
    rw [List.ofFn_succ, digests, ih]
    rfl

/-- The samples are those of the digests that the transcript gives next. -/
theorem samples_eq (hof : ∀ d, randomnessToField 252 d = .ok (env.ofDigest d)) (n : Nat) (t : T) :
    env.samples n t = (List.ofFn fun i : Fin n => challengeOf (env.tr.challenge (env.tr.after i t)).1, env.tr.after n t) := by
  have h1 := (Props.C85_samplers hof t).1 n
  rw [digests_eq, List.map_ofFn] at h1
  refine Prod.ext h1 ?_
  clear h1
  unfold Env.samples
  induction n generalizing t with
  | zero => rfl
  | succ n ih => exact ih _

theorem foldl_rows {σ : Type} (f : σ → FE → σ) (w n : Nat) (data : List FE) (hl : data.length = n * w) (t : σ) :
    (List.range n).foldlM (m := Outcome Empty) (fun t i => do
      let row ← Frame.getRow ⟨data, w⟩ i
      return row.foldl f t) t = .ok (data.foldl f t) := by
  have key : ∀ j ≤ n, (List.range j).foldlM (m := Outcome Empty) (fun t i => do
      let row ← Frame.getRow ⟨data, w⟩ i
      return row.foldl f t) t = .ok ((data.take (j * w)).foldl f t) := by
    intro j
    induction j with
    | zero => intro _; simp [Outcome.pure_eq]
    | succ j ih =>
      intro hj
      have h1 : j * w + w ≤ data.length := by
        rw [hl, ← Nat.succ_mul]
        exact Nat.mul_le_mul_right _ hj
      rw [List.range_succ, List.foldlM_append, ih (by omega), Outcome.bind_ok]
      simp only [List.foldlM_cons, List.foldlM_nil, Frame.getRow, subslice]
      rw [if_pos ⟨by omega, h1⟩]
      simp only [Outcome.bind_ok, Outcome.pure_eq, Outcome.ok.injEq]
      rw [show (j + 1) * w = j * w + w by ring, List.take_add, List.foldl_append]
      congr 1
      rw [show j * w + w - j * w = w by omega]
  rw [key n le_rfl, ← hl, List.take_length]

/-- Appending a frame appends its values one after the other. -/
theorem appendFrame_values {frame : Frame FE} {n : Nat} (hl : frame.data.length = n * frame.rowWidth) {t t' : T}
    (h : appendFrame env frame t = .ok t') : t' = (frame.data.map env.toBytes).foldl env.tr.append t := by
  unfold appendFrame Frame.numRows at h
  by_cases hw : frame.rowWidth = 0
  · rw [if_pos hw] at h
    cases h
  · rw [if_neg hw, Outcome.bind_ok, hl, Nat.mul_div_cancel _ (Nat.pos_of_ne_zero hw)] at h
    have := foldl_rows env.appendField frame.rowWidth n frame.data hl t
    rw [List.foldl_map]
    exact (Outcome.ok.inj (h.symm.trans this))

/-- The challenges of FRI, from the states before each root. -/
theorem sampleZetas_eq (hof : ∀ d, randomnessToField 252 d = .ok (env.ofDigest d)) (roots : List Commitment) (u : Nat → T)
    (hu : ∀ i root, roots[i]? = some root → u (i + 1) = (env.tr.challenge (env.tr.append (u i) root.val)).2) :
    sampleZetas env roots (u 0)
      = (roots.zipIdx.map fun x => challengeOf (env.tr.challenge (env.tr.append (u x.2) x.1.val)).1, u roots.length) := by
  have h0 : ∀ d, env.ofDigest d = challengeOf d := fun d =>
    Outcome.ok.inj ((hof d).symm.trans (Verif.Random.challengeOf_spec d))
  have key : ∀ (roots : List Commitment) (j : Nat),
      (∀ i root, roots[i]? = some root → u (j + i + 1) = (env.tr.challenge (env.tr.append (u (j + i)) root.val)).2) →
      sampleZetas env roots (u j)
        = ((roots.zipIdx j).map fun x => challengeOf (env.tr.challenge (env.tr.append (u x.2) x.1.val)).1,
            u (j + roots.length)) := by
    intro roots
    induction roots with
    | nil => intro j _; rfl
    | cons root roots ih =>
      intro j hj
      have h1 := hj 0 root rfl
      simp only [Nat.add_zero] at h1
      have h2 := ih (j + 1) (fun i r hi => by
        have := hj (i + 1) r hi
        rw [show j + (i + 1) = j + 1 + i by omega] at this
        exact this)
      rw [sampleZetas]
      simp only [Env.sample, Transcript.toField]
      rw [← h1, h2, h0]
      simp only [List.zipIdx_cons, List.map_cons, List.length_cons]
      rw [show j + 1 + roots.length = j + (roots.length + 1) by omega]
  have := key roots 0 (fun i root hi => by rw [Nat.zero_add]; exact hu i root hi)
  rw [Nat.zero_add] at this
  exact this

section hearing
variable {lde trace : List FE} {e draws k : Nat}

theorem hearing_append (j : Nat) (t : T) (l : List Sent) (m : Sent) :
    hearing env lde trace e draws k j t (l ++ [m])
      = m.1.foldl env.tr.append (drawnAfter env lde trace e draws k (j + l.length)
          (hearing env lde trace e draws k j t l)) := by
  induction l generalizing j t with
  | nil => rfl
  | cons x l ih =>
    rw [List.cons_append, hearing, ih, hearing, List.length_cons, show j + 1 + l.length = j + (l.length + 1) by omega]

/-- The state after the first `i + 1` messages. -/
theorem hearing_take {l : List Sent} {i : Nat} {m : Sent} (hm : l[i]? = some m) :
    hearing env lde trace e draws k 0 env.tr.init (l.take (i + 1))
      = m.1.foldl env.tr.append (drawnAfter env lde trace e draws k i
          (hearing env lde trace e draws k 0 env.tr.init (l.take i))) := by
  obtain ⟨hi, rfl⟩ := List.getElem?_eq_some_iff.mp hm
  rw [List.take_succ_eq_append_getElem hi, hearing_append, List.length_take, Nat.min_eq_left hi.le, Nat.zero_add]

end hearing

/-- `n` challenges from the state `t`, after `i` others. -/
def challengesFrom (env : Env FE T) (t : T) (i n : Nat) : List FE :=
  List.ofFn fun j : Fin n => challengeOf (env.tr.challenge (env.tr.after (i + j) t)).1

theorem challengesFrom_after (t : T) (i j n : Nat) :
    challengesFrom env (env.tr.after i t) j n = challengesFrom env t (i + j) n := by
  simp only [challengesFrom, ← after_add, Nat.add_assoc]

/-- The first step, state by state. -/
theorem step1_states (hof : ∀ d, randomnessToField 252 d = .ok (env.ofDigest d)) {air : Air FE Ch} {proof : StarkProof FE}
    {d : Domain FE} {c : Challenges FE Ch} {t : T} (h : step1 env air proof d env.tr.init = .ok (c, t)) {w : Nat}
    (hframe : proof.traceOodFrameEvaluations.data.length = w * proof.traceOodFrameEvaluations.rowWidth) :
    ∃ root0 rest boundary tz t1 t2 t3 t4 tl,
      proof.ldeTraceMerkleRoots = root0 :: rest ∧ t1 = env.tr.append env.tr.init root0.val ∧
      t2 = ((rest.take 1).map (·.val)).foldl env.tr.append (env.tr.after air.numRapChallenges t1) ∧
      air.boundaryConstraints c.rapChallenges = .ok boundary ∧
      t3 = env.tr.append (env.tr.after (boundary.length + boundary.length + air.context.numTransitionConstraints
        + air.context.numTransitionConstraints) t2) proof.compositionPolyRoot.val ∧
      env.tr.sampleZOod env.ofDigest d.ldeRootsOfUnityCoset d.traceRootsOfUnity t3 = some (c.z, tz) ∧
      t4 = ((proof.compositionPolyEvenOodEvaluation :: proof.compositionPolyOddOodEvaluation ::
        proof.traceOodFrameEvaluations.data).map env.toBytes).foldl env.tr.append tz ∧
      tl = env.tr.append (sampleZetas env proof.friLayersMerkleRoots
        (env.tr.after (2 + air.context.traceColumns * air.context.transitionOffsets.length) t4)).2
        (env.toBytes proof.friLastValue) ∧
      Fri.sampleIndices env (iotaMax d.ldeRootOrder) air.context.proofOptions.friNumberOfQueries
        (env.tr.append (env.tr.challenge tl).2 (beBytes 8 proof.nonce)) = .ok (c.iotas, t) ∧
      c = { challengesOf (air.rapChallenges (challengesFrom env t1 0 air.numRapChallenges))
              (challengesFrom env t2 0 boundary.length) (challengesFrom env t2 boundary.length boundary.length)
              (challengesFrom env t2 (boundary.length + boundary.length) air.context.numTransitionConstraints)
              (challengesFrom env t2 (boundary.length + boundary.length + air.context.numTransitionConstraints)
                air.context.numTransitionConstraints) c.z
              (challengeOf (env.tr.challenge (env.tr.after 0 t4)).1) (challengeOf (env.tr.challenge (env.tr.after 1 t4)).1)
              (coeffRows air.context.transitionOffsets.length air.context.traceColumns
                (challengesFrom env t4 2 (air.context.traceColumns * air.context.transitionOffsets.length))) with
            zetas := (sampleZetas env proof.friLayersMerkleRoots
              (env.tr.after (2 + air.context.traceColumns * air.context.transitionOffsets.length) t4)).1
            iotas := c.iotas
            leadingZerosCount := Grinding.leadingZerosOf env.keccak (env.tr.challenge tl).1 proof.nonce } := by
  have h0 : ∀ d, env.ofDigest d = challengeOf d := fun d =>
    Outcome.ok.inj ((hof d).symm.trans (Random.challengeOf_spec d))
  have hs0 : ∀ n t, env.samples n t = (challengesFrom env t 0 n, env.tr.after n t) := fun n t => by
    rw [samples_eq hof, challengesFrom]
    simp only [Nat.zero_add]
  have hrows : ∀ k m t, sampleRows env k m t = (coeffRows k m (challengesFrom env t 0 (m * k)), env.tr.after (m * k) t) := by
    intro k m t
    refine Prod.ext ?_ ?_
    · rw [Props.sampleRows_coeffRows, hs0, Nat.mul_comm]
    · rw [(sampleRows_samples k m t).2.1, hs0, Nat.mul_comm]
  have hs1 : ∀ t, env.sample t = (challengeOf (env.tr.challenge (env.tr.after 0 t)).1, env.tr.after 1 t) := fun t => by
    rw [Env.sample, Transcript.toField, h0]
    rfl
  unfold step1 at h
  simp only [Outcome.bind_eq_ok, Outcome.pure_eq, Outcome.ok.injEq, Prod.mk.injEq] at h
  obtain ⟨root0, e1, boundary, e2, ⟨z, tz⟩, e3, t7, e4, ⟨io, tio⟩, e5, rfl, rfl⟩ := h
  obtain ⟨rest, hroots⟩ : ∃ rest, proof.ldeTraceMerkleRoots = root0 :: rest := by
    have hroot0 : proof.ldeTraceMerkleRoots[0]? = some root0 := index_eq_ok.mp e1
    cases hr : proof.ldeTraceMerkleRoots with
    | nil => rw [hr] at hroot0; cases hroot0
    | cons x rest => rw [hr] at hroot0; exact ⟨rest, by rw [Option.some.inj hroot0]⟩
  have e4' := appendFrame_values hframe e4
  have e3' := ofOptionUnwrap_ok.mp e3
  have h01 : proof.ldeTraceMerkleRoots[1]? = rest[0]? := by rw [hroots]; rfl
  simp only [h01] at e3' ⊢
  cases rest with
  | nil =>
    simp only [buildRapChallenges, hs0 air.numRapChallenges, List.getElem?_nil] at e2 e3' ⊢
    generalize ht2 : env.tr.after air.numRapChallenges (env.tr.append env.tr.init root0.val) = t2 at e3' ⊢
    simp only [hs0, hrows, hs1, challengesFrom_after, ← after_add, Nat.add_zero, Nat.reduceAdd] at e3' e5 ⊢
    exact ⟨root0, [], boundary, tz, _, t2, _, t7, _, hroots, rfl, ht2.symm, e2, rfl, e3', by rw [e4']; rfl, rfl, e5, rfl⟩
  | cons root1 rest =>
    simp only [buildRapChallenges, hs0, hrows, hs1, challengesFrom_after, ← after_add, Nat.add_zero, Nat.reduceAdd,
      List.getElem?_cons_zero] at e2 e3' e5 ⊢
    exact ⟨root0, _, boundary, tz, _, _, _, t7, _, hroots, rfl, rfl, e2, rfl, e3', by rw [e4']; rfl, rfl, e5, rfl⟩

end Verif
