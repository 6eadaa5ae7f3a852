import Verif.Spec.Verdict
import Verif.Lemmas.NoPanic
import Verif.Props.StarkSound

/-!
# The interaction of the first step
-/

namespace Verif
open Polynomial Spec TraceTable
variable {F T Ch : Type} [Field F] [DecidableEq F] {env : Env F T}

omit [Field F] [DecidableEq F] in
theorem happens_append {tr : Transcript T} (l l' : List Event) (t t' : T) :
    Happens tr (l ++ l') t t' ↔ ∃ s, Happens tr l t s ∧ Happens tr l' s t' := by
  induction l generalizing t with
  | nil => simp [Happens]
  | cons e l ih => cases e <;> simp [Happens, ih, and_assoc]

omit [DecidableEq F] in
/-- Digests drawn one after another, as field elements. -/
theorem samples_of_draws {ds : List Commitment} {t t' : T} (h : Happens env.tr (ds.map .draw) t t') :
    env.samples ds.length t = (ds.map env.ofDigest, t') := by
  induction ds generalizing t with
  | nil =>
    obtain rfl : t = t' := h
    rfl
  | cons x ds ih =>
    obtain ⟨h1, h2⟩ := h
    have := ih h2
    unfold Env.samples at this ⊢
    simp only [List.length_cons, Transcript.batchSample, Transcript.toField, h1, this, List.map_cons]

omit [Field F] [DecidableEq F] in
theorem draws_exist {tr : Transcript T} (k : Nat) (t : T) :
    ∃ (ds : List Commitment) (t' : T), ds.length = k ∧ t' = tr.after k t ∧ Happens tr (ds.map .draw) t t' ∧
      ∀ x ∈ ds, ∃ j < k, x = (tr.challenge (tr.after j t)).1 := by
  induction k generalizing t with
  | zero => exact ⟨[], t, rfl, rfl, rfl, by simp⟩
  | succ k ih =>
    obtain ⟨ds, t', h1, h2, h3, h4⟩ := ih (tr.challenge t).2
    refine ⟨(tr.challenge t).1 :: ds, t', by simp [h1], h2, ⟨rfl, h3⟩, fun x hx => ?_⟩
    rcases List.mem_cons.mp hx with rfl | hx
    · exact ⟨0, by omega, rfl⟩
    · obtain ⟨j, hj, rfl⟩ := h4 x hx
      exact ⟨j + 1, by omega, rfl⟩

omit [Field F] [DecidableEq F] in
theorem draws_after {tr : Transcript T} {ds : List Commitment} {t t' : T} (h : Happens tr (ds.map .draw) t t') :
    t' = tr.after ds.length t ∧ ∀ j < ds.length, (tr.challenge (tr.after j t)).1 ∈ ds := by
  induction ds generalizing t with
  | nil => exact ⟨h.symm, by simp⟩
  | cons x ds ih =>
    obtain ⟨h1, h2⟩ := h
    obtain ⟨h3, h4⟩ := ih h2
    refine ⟨h3, fun j hj => ?_⟩
    cases j with
    | zero => exact List.mem_cons.mpr (.inl h1)
    | succ j => exact List.mem_cons_of_mem _ (h4 j (by simpa using hj))

omit [Field F] [DecidableEq F] in
theorem happens_sends {tr : Transcript T} {α : Type} {f : α → Bytes} (l : List α) (t t' : T) :
    Happens tr (l.map fun v => .send (f v)) t t' ↔ t' = l.foldl (fun t v => tr.append t (f v)) t := by
  induction l generalizing t with
  | nil => exact eq_comm
  | cons x l ih => exact ih _

omit [DecidableEq F] in
theorem zetas_of_happens {roots ds : List Commitment} (hl : ds.length = roots.length) {t t' : T}
    (h : Happens env.tr ((roots.zip ds).flatMap fun y => [.send y.1.val, .draw y.2]) t t') :
    sampleZetas env roots t = (ds.map env.ofDigest, t') := by
  induction roots generalizing ds t with
  | nil =>
    obtain rfl := List.length_eq_zero_iff.mp hl
    obtain rfl : t = t' := h
    rfl
  | cons r roots ih =>
    cases ds with
    | nil => simp at hl
    | cons x ds =>
      obtain ⟨h1, h2⟩ := h
      have := ih (by simpa using hl) h2
      simp only [sampleZetas, Env.sample, Transcript.toField, h1, this, List.map_cons]

omit [Field F] [DecidableEq F] in
theorem zetas_exist {tr : Transcript T} (roots : List Commitment) (t : T) :
    ∃ (ds : List Commitment) (t' : T), ds.length = roots.length ∧
      Happens tr ((roots.zip ds).flatMap fun y => [.send y.1.val, .draw y.2]) t t' := by
  induction roots generalizing t with
  | nil => exact ⟨[], t, rfl, rfl⟩
  | cons r roots ih =>
    obtain ⟨ds, t', h1, h2⟩ := ih (tr.challenge (tr.append t r.val)).2
    exact ⟨(tr.challenge (tr.append t r.val)).1 :: ds, t', by simp [h1], rfl, h2⟩

omit [DecidableEq F] in
theorem indices_of_draws {m : Nat} (hm : m ≠ 0) {ds : List Commitment} {t t' : T}
    (h : Happens env.tr (ds.map .draw) t t') :
    Fri.sampleIndices env m ds.length t = .ok (ds.map fun x => beNat (x.val.take 8) % m, t') := by
  induction ds generalizing t with
  | nil =>
    obtain rfl : t = t' := h
    rfl
  | cons x ds ih =>
    obtain ⟨h1, h2⟩ := h
    have := ih h2
    simp only [List.length_cons, Fri.sampleIndices, if_neg hm, Transcript.toUsize, h1, this, Outcome.bind_ok,
      Outcome.pure_eq, List.map_cons]

/-- Appending a frame appends its cells. -/
theorem appendFrame_flatten {rows : List (List F)} {w : Nat} (hw : 0 < w) (hr : ∀ r ∈ rows, r.length = w) (t : T) :
    appendFrame env ⟨rows.flatten, w⟩ t = .ok (rows.flatten.foldl env.appendField t) := by
  unfold appendFrame Frame.numRows
  simp only [if_neg (by omega : ¬ w = 0), Outcome.bind_ok]
  rw [length_flatten_const _ w hr, Nat.mul_div_cancel _ hw, List.foldl_flatten]
  refine foldlM_range (fun i r s hi => ?_) t
  obtain ⟨hk, rfl⟩ := List.getElem?_eq_some_iff.mp hi
  rw [ExampleAirs.getRow_flatten hr hk, Outcome.bind_ok, List.getD_eq_getElem _ _ hk, Outcome.pure_eq]

variable {a b : Nat} {g w : F} {air : Air F Ch} {proof : StarkProof F} {d : Domain F}

omit [DecidableEq F] in
theorem IsDomain.onDomains_iff {h : F} (D : IsDomain env.ta d a b h g w) (v : F) :
    OnDomains a b g w h v ↔ v ∈ d.ldeRootsOfUnityCoset ∨ v ∈ d.traceRootsOfUnity := by
  unfold OnDomains
  rw [D.lde, D.traceRoots]
  simp only [List.mem_map, List.mem_range, eq_comm]

/-- The first step recovers the challenges of the interaction. -/
theorem step1_of_replays (D : IsDomain env.ta d a b (air.context.proofOptions.cosetOffset : F) g w)
    (hcols : 0 < air.context.traceColumns) (W : WellFormed air proof (a + b))
    {boundary : List (BoundaryConstraint F)} {x : Drawn} (R : Replays env air proof boundary a b g w x) :
    ∃ t, step1 env air proof d env.tr.init = .ok (x.challenges env air proof (a + b), t) := by
  obtain ⟨t, h⟩ := R.happens
  unfold protocolEvents at h
  simp only [happens_append] at h
  obtain ⟨t12, ⟨t11, ⟨t10, ⟨t9, ⟨t7, ⟨t6', ⟨t6, ⟨t5'', ⟨t5', ⟨t5, ⟨t4, ⟨t3, ⟨t2, ⟨t1, ⟨t0', ⟨t0, h0, hrap⟩, hroot⟩,
    haB⟩, hbB⟩, haT⟩, hbT⟩, hcomp⟩, hrej⟩, hz⟩, hood⟩, hframe⟩, hg⟩, hgs⟩, hzs⟩, hgr⟩, hq⟩ := h
  obtain ⟨root0, rest, hroots⟩ := List.exists_cons_of_ne_nil W.roots
  obtain ⟨rows, hrl, hr, hdata⟩ := wellFormed_rows W hcols
  rw [hroots] at h0 hroot
  obtain rfl : env.tr.append env.tr.init root0.val = t0 := h0
  have hsr := samples_of_draws hrap
  rw [R.rap] at hsr
  have hb1 : buildRapChallenges env air (env.tr.append env.tr.init root0.val)
      = (air.rapChallenges (x.rap.map env.ofDigest), t0') := by
    unfold buildRapChallenges
    rw [hsr]
  have ht1 : t1 = transcriptRound1 env air proof.ldeTraceMerkleRoots env.tr.init := by
    rw [hroots]
    cases rest with
    | nil =>
      obtain rfl : t0' = t1 := hroot
      simp only [transcriptRound1, hb1]
    | cons root1 rest =>
      obtain rfl : env.tr.append t0' root1.val = t1 := hroot
      simp only [transcriptRound1, hb1]
  have h2 := samples_of_draws haB
  have h3 := samples_of_draws hbB
  have h4 := samples_of_draws haT
  have h5 := samples_of_draws hbT
  rw [R.alphaB] at h2
  rw [R.betaB] at h3
  rw [R.alphaT] at h4
  rw [R.betaT] at h5
  obtain rfl : env.tr.append t5 proof.compositionPolyRoot.val = t5' := hcomp
  obtain ⟨rfl, hrej'⟩ := draws_after hrej
  obtain ⟨hz1, rfl⟩ : _ ∧ _ = t6 := hz
  have h6 : env.tr.sampleZOod env.ofDigest d.ldeRootsOfUnityCoset d.traceRootsOfUnity
      (env.tr.append t5 proof.compositionPolyRoot.val) = some (env.ofDigest x.point, (env.tr.challenge (env.tr.after
        x.rejected.length (env.tr.append t5 proof.compositionPolyRoot.val))).2) := by
    have hp := R.point
    rw [D.onDomains_iff, not_or] at hp
    rw [Props.C51_outside]
    refine ⟨hp.1, hp.2, x.rejected.length, ?_, fun j hj => ?_⟩
    · rw [← hz1]
      rfl
    · exact (D.onDomains_iff _).mp (R.rejected _ (hrej' j hj))
  obtain rfl : env.appendField (env.appendField _ proof.compositionPolyEvenOodEvaluation)
    proof.compositionPolyOddOodEvaluation = t6' := hood
  have h7 := (happens_sends _ _ _).mp hframe
  obtain ⟨hg1, hg2, rfl⟩ : _ ∧ _ ∧ _ = t9 := hg
  have h10 := samples_of_draws hgs
  have h10' : sampleRows env air.context.transitionOffsets.length air.context.traceColumns
      (env.tr.challenge (env.tr.challenge t7).2).2 = (coeffRows air.context.transitionOffsets.length
        air.context.traceColumns (x.gammas.map env.ofDigest), t10) := by
    have e1 := Props.sampleRows_coeffRows (env := env) air.context.transitionOffsets.length air.context.traceColumns
      (env.tr.challenge (env.tr.challenge t7).2).2
    have e2 := (sampleRows_samples (env := env) air.context.transitionOffsets.length air.context.traceColumns
      (env.tr.challenge (env.tr.challenge t7).2).2).2.1
    rw [R.gammas, Nat.mul_comm] at h10
    rw [h10] at e1 e2
    exact Prod.ext e1 e2
  have h11 := zetas_of_happens R.zetas hzs
  obtain ⟨hg3, rfl⟩ : _ ∧ _ = t12 := hgr
  have h13 := indices_of_draws (m := 2 ^ (a + b)) (by positivity) hq
  rw [R.queries] at h13
  refine ⟨t, ?_⟩
  refine (step1_eq (env := env) (air := air) (d := d) (t0 := env.tr.init)
    (ch := air.rapChallenges (x.rap.map env.ofDigest)) (t7 := t7) hroots (by rw [hb1]) ht1 R.constraints h2 h3 h4 h5 h6
    ?_ rfl rfl h10' h11 rfl (io := x.queries.map fun digest => beNat (digest.val.take 8) % 2 ^ (a + b)) (t13 := t)
    ?_).trans ?_
  · rw [hdata, appendFrame_flatten hcols hr, h7, hdata]
    rfl
  · rw [D.ldeRootOrder, iotaMax_of_lt D.small]
    exact h13
  · unfold Drawn.challenges
    rw [← hg1, ← hg2, ← hg3]
    rfl

/-- When the first step ends, there is an interaction. -/
theorem replays_of_step1 (D : IsDomain env.ta d a b (air.context.proofOptions.cosetOffset : F) g w)
    (hcols : 0 < air.context.traceColumns) (W : WellFormed air proof (a + b)) {c : Challenges F Ch} {t : T}
    (h : step1 env air proof d env.tr.init = .ok (c, t)) :
    ∃ boundary x, Replays env air proof boundary a b g w x ∧ c = x.challenges env air proof (a + b) := by
  suffices hx : ∃ boundary x, Replays env air proof boundary a b g w x by
    obtain ⟨boundary, x, R⟩ := hx
    obtain ⟨t', h'⟩ := step1_of_replays D hcols W R
    exact ⟨boundary, x, R, (Prod.mk.inj (Outcome.ok.inj (h.symm.trans h'))).1⟩
  obtain ⟨root0, rest, hroots⟩ := List.exists_cons_of_ne_nil W.roots
  unfold step1 at h
  rw [index_ok (show proof.ldeTraceMerkleRoots[0]? = some root0 by rw [hroots]; rfl), Outcome.bind_ok] at h
  simp only [Outcome.bind_eq_ok, ofOptionUnwrap_ok] at h
  obtain ⟨boundary, hbd, ⟨z, t6⟩, h6, -⟩ := h
  obtain ⟨rap, t0, l0, -, e0, -⟩ := draws_exist (tr := env.tr) air.numRapChallenges (env.tr.append env.tr.init root0.val)
  have hs := samples_of_draws e0
  rw [l0] at hs
  unfold buildRapChallenges at hbd h6
  rw [hs] at hbd h6
  have hroot : ∃ t1, Happens env.tr (((proof.ldeTraceMerkleRoots.drop 1).take 1).map fun root => .send root.val) t0 t1 ∧
      (match proof.ldeTraceMerkleRoots[1]? with
        | some root => env.tr.append t0 root.val
        | none => t0) = t1 := by
    refine ⟨_, (happens_sends _ _ _).mpr rfl, ?_⟩
    rw [hroots]
    cases rest <;> rfl
  obtain ⟨t1, e1, ht1⟩ := hroot
  replace h6 : env.tr.sampleZOod env.ofDigest d.ldeRootsOfUnityCoset d.traceRootsOfUnity (env.tr.append (env.samples
      air.context.numTransitionConstraints (env.samples air.context.numTransitionConstraints (env.samples
        boundary.length (env.samples boundary.length t1).2).2).2).2 proof.compositionPolyRoot.val) = some (z, t6) := by
    rw [← ht1]
    exact h6
  obtain ⟨alphaB, t2, l2, -, e2, -⟩ := draws_exist (tr := env.tr) boundary.length t1
  obtain ⟨betaB, t3, l3, -, e3, -⟩ := draws_exist (tr := env.tr) boundary.length t2
  obtain ⟨alphaT, t4, l4, -, e4, -⟩ := draws_exist (tr := env.tr) air.context.numTransitionConstraints t3
  obtain ⟨betaT, t5, l5, -, e5, -⟩ := draws_exist (tr := env.tr) air.context.numTransitionConstraints t4
  have s2 := samples_of_draws e2
  have s3 := samples_of_draws e3
  have s4 := samples_of_draws e4
  have s5 := samples_of_draws e5
  rw [l2] at s2
  rw [l3] at s3
  rw [l4] at s4
  rw [l5] at s5
  rw [s2, s3, s4, s5] at h6
  rw [Props.C51_outside] at h6
  obtain ⟨hz1, hz2, k, hk, hrej⟩ := h6
  obtain ⟨rejected, t5', l5', e5', h5', m5⟩ := draws_exist (tr := env.tr) k (env.tr.append t5 proof.compositionPolyRoot.val)
  subst e5'
  obtain ⟨rfl, rfl⟩ := Prod.mk.inj hk
  have hf : ∃ t7, Happens env.tr (proof.traceOodFrameEvaluations.data.map fun v => .send (env.toBytes v))
    (env.appendField (env.appendField (env.tr.toField env.ofDigest (env.tr.after k (env.tr.append t5
      proof.compositionPolyRoot.val))).2 proof.compositionPolyEvenOodEvaluation)
      proof.compositionPolyOddOodEvaluation) t7 := ⟨_, (happens_sends _ _ _).mpr rfl⟩
  obtain ⟨t7, e7⟩ := hf
  obtain ⟨gammas, t10, l10, -, e10, -⟩ := draws_exist (tr := env.tr)
    (air.context.traceColumns * air.context.transitionOffsets.length) (env.tr.challenge (env.tr.challenge t7).2).2
  obtain ⟨zetas, t11, l11, e11⟩ := zetas_exist (tr := env.tr) proof.friLayersMerkleRoots t10
  obtain ⟨queries, t13, l13, -, e13, -⟩ := draws_exist (tr := env.tr) air.context.proofOptions.friNumberOfQueries
    (env.tr.append (env.tr.challenge (env.appendField t11 proof.friLastValue)).2 (beBytes 8 proof.nonce))
  refine ⟨boundary, ⟨rap, alphaB, betaB, alphaT, betaT, rejected,
      (env.tr.challenge (env.tr.after k (env.tr.append t5 proof.compositionPolyRoot.val))).1, (env.tr.challenge t7).1,
      (env.tr.challenge (env.tr.challenge t7).2).1, gammas, zetas,
      (env.tr.challenge (env.appendField t11 proof.friLastValue)).1, queries⟩, l0, hbd, l2, l3,
    l4, l5, ?_, ?_, l10, l11, l13, t13, ?_⟩
  rotate_left 2
  · unfold protocolEvents
    simp only [happens_append]
    exact ⟨_, ⟨_, ⟨_, ⟨_, ⟨_, ⟨_, ⟨_, ⟨_, ⟨_, ⟨_, ⟨_, ⟨_, ⟨_, ⟨_, ⟨_, ⟨_, (happens_sends _ _ _).mpr rfl, by rw [hroots]; exact e0⟩, e1⟩,
      e2⟩, e3⟩, e4⟩, e5⟩, rfl⟩, h5'⟩, ⟨rfl, rfl⟩⟩, rfl⟩, e7⟩, ⟨rfl, rfl, rfl⟩⟩, e10⟩, e11⟩, ⟨rfl, rfl⟩⟩, e13⟩
  · intro x hx
    obtain ⟨j, hj, rfl⟩ := m5 x hx
    exact (D.onDomains_iff _).mpr (hrej j hj)
  · rw [D.onDomains_iff, not_or]
    exact ⟨hz1, hz2⟩

end Verif
