import Verif.Lemmas.Deep
import Verif.Spec.Replay

/-!
# Replaying the prover's transcript
-/

namespace Verif
open Polynomial Spec TraceTable
variable {F T Ch : Type} [Field F] [DecidableEq F]
variable {env : Env F T}

omit [DecidableEq F] in
theorem samples_add (i j : Nat) (t : T) :
    env.samples (i + j) t
      = ((env.samples i t).1 ++ (env.samples j (env.samples i t).2).1, (env.samples j (env.samples i t).2).2) := by
  unfold Env.samples
  induction i generalizing t with
  | zero => simp [Transcript.batchSample]
  | succ i ih =>
    rw [show i + 1 + j = (i + j) + 1 by omega]
    simp only [Transcript.batchSample, ih, List.cons_append]

omit [DecidableEq F] in
theorem samples_length (i : Nat) (t : T) : (env.samples i t).1.length = i := by
  unfold Env.samples
  induction i generalizing t with
  | zero => rfl
  | succ i ih => simp [Transcript.batchSample, ih]

omit [DecidableEq F] in
/-- The verifier draws the trace term coefficients row by row, the prover all at once. -/
theorem sampleRows_samples (k m : Nat) (t : T) :
    (sampleRows env k m t).1.flatten = (env.samples (k * m) t).1 ∧
    (sampleRows env k m t).2 = (env.samples (k * m) t).2 ∧
    (sampleRows env k m t).1.length = m ∧ ∀ r ∈ (sampleRows env k m t).1, r.length = k := by
  induction m generalizing t with
  | zero => simp [sampleRows, Env.samples, Transcript.batchSample]
  | succ m ih =>
    obtain ⟨h1, h2, h3, h4⟩ := ih (env.samples k t).2
    rw [show k * (m + 1) = k + k * m by ring, samples_add]
    simp only [sampleRows, List.flatten_cons, h1, h2, List.length_cons, h3, List.mem_cons, true_and]
    rintro r (rfl | hr)
    · exact samples_length k t
    · exact h4 r hr

theorem foldlM_range {σ ε : Type} {l : List (List F)} {f : σ → Nat → Outcome ε σ} {g : σ → List F → σ}
    (h : ∀ (i : Nat) r s, l[i]? = some r → f s i = .ok (g s r)) (s : σ) :
    (List.range l.length).foldlM f s = .ok (l.foldl g s) := by
  induction l using List.reverseRecOn generalizing s with
  | nil => rfl
  | append_singleton l r ih =>
    rw [List.length_append, List.length_singleton, List.range_succ, List.foldlM_append,
      ih (fun i r' s hi => h i r' s (by
        rw [List.getElem?_append_left]
        · exact hi
        · exact (List.getElem?_eq_some_iff.mp hi).1)), List.foldl_append]
    simp only [List.foldlM_cons, List.foldlM_nil, List.foldl_cons, List.foldl_nil, Outcome.bind_ok]
    have := h l.length r (l.foldl g s) (by simp)
    show (f (l.foldl g s) l.length >>= pure) = _
    rw [this]
    rfl

/-- Appending the frame to the transcript. -/
theorem appendFrame_ok (polys : List F[X]) (hp : 0 < polys.length) (offsets : List Nat) (g z : F) (t : T) :
    appendFrame env ⟨(frameRows polys offsets g z).flatten, polys.length⟩ t
      = .ok ((frameRows polys offsets g z).foldl (fun t row => row.foldl env.appendField t) t) := by
  unfold appendFrame
  rw [frame_numRows polys hp, Outcome.bind_ok]
  have hlen : offsets.length = (frameRows polys offsets g z).length := by simp [frameRows]
  rw [hlen]
  refine foldlM_range (fun i r s hi => ?_) t
  have : ∃ o, offsets[i]? = some o ∧ r = polys.map fun p => p.eval (z * g ^ o) := by
    unfold frameRows at hi
    rw [List.getElem?_map] at hi
    cases ho : offsets[i]? with
    | none => rw [ho] at hi; cases hi
    | some o => rw [ho] at hi; exact ⟨o, rfl, (Option.some.inj hi).symm⟩
  obtain ⟨o, ho, rfl⟩ := this
  rw [frame_getRow polys offsets g z i o ho, Outcome.bind_ok, Outcome.pure_eq]

/-- The commit phase, whatever the degree: the verifier recovers its challenges from the roots. -/
theorem Fri.commitPhase_replay {a m : Nat} (ha : a ≤ m + 1) {p : F[X]} {t t' : T} {h last : F}
    {layers : List (FriLayer F)} (hc : commitPhase env a p t h (2 ^ m) = .ok (last, layers, t')) :
    layers.length = a - 1 + 1 ∧ ∃ zs q ps tz,
      sampleZetas env (layers.map (·.merkleTree.root)) t = (zs, tz) ∧ t' = env.appendField tz last ∧
      Folds env p h m layers zs q ps ∧ last = (coefficients q).headD 0 := by
  unfold commitPhase at hc
  simp only [Outcome.bind_eq_ok, Outcome.pure_eq, Outcome.ok.injEq, Prod.mk.injEq] at hc
  obtain ⟨layer, hl, ⟨r1, r2, r3⟩, hr, h1, h2, h3⟩ := hc
  obtain ⟨hlen, zs, ps, hz, hf⟩ := commitLoop_folds (by omega) hl hr
  subst h2
  refine ⟨by simp [hlen], zs, _, ps, _, hz, ?_, hf, ?_⟩
  · rw [← h3, ← h1]
  · exact h1.symm

theorem round1_polys {air : Air F Ch} {d : Domain F} {tr : TraceTable F} {t t' : T} {r1 : Round1 F Ch}
    (h : round1 env air tr d t = .ok (r1, t')) : 0 < r1.tracePolys.length := by
  have key : ∀ {tr : TraceTable F} {t : T} {x}, interpolateAndCommit env tr d t = .ok x →
      0 < x.1.1.length := by
    intro tr t x hx
    unfold interpolateAndCommit computeLdeTraceEvaluations at hx
    simp only [Outcome.bind_eq_ok, Outcome.pure_eq, Outcome.ok.injEq] at hx
    obtain ⟨polys, -, evs, hev, tab, htab, -, -, -, -, rfl⟩ := hx
    obtain ⟨hlen, -⟩ := mapOutcome_mem hev
    by_contra hc
    simp only [not_lt, Nat.le_zero, List.length_eq_zero_iff] at hc
    subst hc
    simp only [List.length_nil, List.length_eq_zero_iff] at hlen
    subst hlen
    cases htab
  unfold round1 at h
  simp only [Outcome.bind_eq_ok] at h
  obtain ⟨m, hm, aux, -, h⟩ := h
  have hpos := key hm
  split at h
  · simp only [Outcome.bind_eq_ok, Outcome.pure_eq, Outcome.ok.injEq, Prod.mk.injEq] at h
    obtain ⟨-, -, rfl, -⟩ := h
    exact hpos
  · simp only [Outcome.bind_eq_ok, Outcome.pure_eq, Outcome.ok.injEq, Prod.mk.injEq] at h
    obtain ⟨-, -, -, -, rfl, -⟩ := h
    simp only [List.length_append]
    omega

/-- The transcript and the challenges after the first round, whatever the trace. -/
theorem round1_transcript {air : Air F Ch} {d : Domain F} {tr : TraceTable F} {t t' : T}
    {r1 : Round1 F Ch} (hr1 : round1 env air tr d t = .ok (r1, t')) :
    ∃ root0 rest, r1.ldeTraceMerkleRoots = root0 :: rest ∧
      r1.rapChallenges = (buildRapChallenges env air (env.tr.append t root0.val)).1 ∧
      t' = transcriptRound1 env air r1.ldeTraceMerkleRoots t := by
  have key : ∀ {tr : TraceTable F} {t : T} {x}, interpolateAndCommit env tr d t = .ok x →
      x.2 = env.tr.append t x.1.2.2.2.val := by
    intro tr t x hx
    unfold interpolateAndCommit at hx
    simp only [Outcome.bind_eq_ok, Outcome.pure_eq, Outcome.ok.injEq] at hx
    obtain ⟨_, _, _, _, _, _, _, _, _, _, rfl⟩ := hx
    rfl
  unfold round1 at hr1
  simp only [Outcome.bind_eq_ok] at hr1
  obtain ⟨m, hm, aux, -, hr1⟩ := hr1
  have h1 := key hm
  split at hr1
  · simp only [Outcome.bind_eq_ok, Outcome.pure_eq, Outcome.ok.injEq, Prod.mk.injEq] at hr1
    obtain ⟨-, -, rfl, rfl⟩ := hr1
    refine ⟨_, _, rfl, ?_, ?_⟩
    · simp only [h1]
    · simp only [transcriptRound1, h1]
  · simp only [Outcome.bind_eq_ok, Outcome.pure_eq, Outcome.ok.injEq, Prod.mk.injEq] at hr1
    obtain ⟨y, hy, -, -, rfl, rfl⟩ := hr1
    have h2 := key hy
    refine ⟨_, _, rfl, ?_, ?_⟩
    · simp only [h1]
    · simp only [transcriptRound1, ← h1, h2]

theorem iotaMax_of_lt {k : Nat} (h : k < 64) : iotaMax k = 2 ^ k :=
  Nat.mod_eq_of_lt (Nat.pow_lt_pow_right (by norm_num) h)

theorem iotaMax_le (k : Nat) : iotaMax k ≤ 2 ^ k := Nat.mod_le _ _

/-- The challenges of the first step, from the states of the transcript it goes through. -/
theorem step1_eq {air : Air F Ch} {proof : StarkProof F} {d : Domain F} {root0 : Commitment}
    {rest : List Commitment} {t0 t1 t2 t3 t4 t5 t6 t7 t8 t9 t10 t11 t12 t13 : T} {ch : Ch}
    {boundary : List (BoundaryConstraint F)} {aB bB aT bT zs : List F} {z ge go : F} {rows : List (List F)}
    {chal : Commitment} {io : List Nat}
    (hroots : proof.ldeTraceMerkleRoots = root0 :: rest)
    (hch : ch = (buildRapChallenges env air (env.tr.append t0 root0.val)).1)
    (h1 : t1 = transcriptRound1 env air proof.ldeTraceMerkleRoots t0)
    (hb : air.boundaryConstraints ch = .ok boundary)
    (h2 : env.samples boundary.length t1 = (aB, t2)) (h3 : env.samples boundary.length t2 = (bB, t3))
    (h4 : env.samples air.context.numTransitionConstraints t3 = (aT, t4))
    (h5 : env.samples air.context.numTransitionConstraints t4 = (bT, t5))
    (h6 : env.tr.sampleZOod env.ofDigest d.ldeRootsOfUnityCoset d.traceRootsOfUnity
      (env.tr.append t5 proof.compositionPolyRoot.val) = some (z, t6))
    (h7 : appendFrame env proof.traceOodFrameEvaluations (env.appendField (env.appendField t6
      proof.compositionPolyEvenOodEvaluation) proof.compositionPolyOddOodEvaluation) = .ok t7)
    (h8 : env.sample t7 = (ge, t8)) (h9 : env.sample t8 = (go, t9))
    (h10 : sampleRows env air.context.transitionOffsets.length air.context.traceColumns t9 = (rows, t10))
    (h11 : sampleZetas env proof.friLayersMerkleRoots t10 = (zs, t11))
    (h12 : env.tr.challenge (env.appendField t11 proof.friLastValue) = (chal, t12))
    (h13 : Fri.sampleIndices env (iotaMax d.ldeRootOrder) air.context.proofOptions.friNumberOfQueries
      (env.tr.append t12 (beBytes 8 proof.nonce)) = .ok (io, t13)) :
    step1 env air proof d t0 = .ok (⟨z, aB.zip bB, aT.zip bT, rows, ge, go, zs, io, ch,
      Grinding.leadingZerosOf env.keccak chal proof.nonce⟩, t13) := by
  unfold step1
  rw [index_ok (show proof.ldeTraceMerkleRoots[0]? = some root0 by rw [hroots]; rfl), Outcome.bind_ok]
  rw [hroots] at h1
  cases rest with
  | nil =>
    replace h1 : (buildRapChallenges env air (env.tr.append t0 root0.val)).2 = t1 := h1.symm
    simp only [hroots, List.getElem?_cons_succ, List.getElem?_nil, ← hch, h1, hb, Outcome.bind_ok, h2, h3, h4,
      h5, h6, Outcome.ofOptionUnwrap, h7, h8, h9, h10, h11, h12, h13, Outcome.pure_eq]
  | cons root1 rest =>
    replace h1 : env.tr.append (buildRapChallenges env air (env.tr.append t0 root0.val)).2 root1.val = t1 :=
      h1.symm
    simp only [hroots, List.getElem?_cons_succ, List.getElem?_cons_zero, ← hch, h1, hb, Outcome.bind_ok, h2, h3,
      h4, h5, h6, Outcome.ofOptionUnwrap, h7, h8, h9, h10, h11, h12, h13, Outcome.pure_eq]

/-- Everything about a run of the prover: the verifier recovers its challenges. -/
theorem prove_replay {PI : Type} {new : AirNew F Ch PI} {trace : TraceTable F} {pi : PI}
    {options : ProofOptions} {proof : StarkProof F} {air : Air F Ch}
    (hnew : new trace.nRows pi options = .ok air) {a b : Nat} (ha : 1 ≤ a)
    (hn : air.traceLength = 2 ^ a) (hb : air.context.proofOptions.blowupFactor.toNat = 2 ^ b)
    (h : prove env new trace pi options = .ok proof) :
    ∃ d c t r1 r2 deep layers ps, Domain.new env.ta air = .ok d ∧
      step1 env air proof d env.tr.init = .ok (c, t) ∧
      ProverUses env air d trace proof c r1 r2 deep layers ps := by
  unfold prove at h
  simp only [Outcome.bind_eq_ok, hnew, Outcome.ok.injEq, exists_eq_left'] at h
  obtain ⟨d, hd, ⟨r1, t1⟩, hr1, boundary, hbound, r2, hr2, ⟨z, tz⟩, hz, ⟨r4, t4⟩, hr4, hproof⟩ := h
  obtain ⟨g, w, D⟩ := domain_new ha hn hb hd
  obtain ⟨root0, rest, hroots, hrap, ht1⟩ := round1_transcript hr1
  have hpos := round1_polys hr1
  simp only at hbound hr2 hz hr4 hproof
  generalize h2 : env.samples boundary.length t1 = x2 at hr2 hz
  obtain ⟨aB, t2⟩ := x2
  generalize h3 : env.samples boundary.length t2 = x3 at hr2 hz
  obtain ⟨bB, t3⟩ := x3
  simp only at hr2 hz
  generalize h4 : env.samples air.context.numTransitionConstraints t3 = x4 at hr2 hz
  obtain ⟨aT, t4'⟩ := x4
  simp only at hr2 hz
  generalize h5 : env.samples air.context.numTransitionConstraints t4' = x5 at hr2 hz
  obtain ⟨bT, t5⟩ := x5
  simp only at hr2 hz
  unfold round4 at hr4
  simp only [Outcome.bind_eq_ok, D.lde_length, D.rootOrder] at hr4
  obtain ⟨deep, hdeep, ⟨last, layers, tf⟩, hfri, nonce, hnonce, ⟨ql, iotas, t3'⟩, hq, openings, hopen, hr4⟩ := hr4
  generalize h7 : (List.foldl (fun t row => List.foldl env.appendField t row)
    (env.appendField (env.appendField tz (round3 air d r1 r2 z).compositionPolyEvenOodEvaluation)
      (round3 air d r1 r2 z).compositionPolyOddOodEvaluation) (round3 air d r1 r2 z).traceOodEvaluations)
    = t7 at hdeep hfri
  generalize h8 : env.sample t7 = x8 at hdeep hfri
  obtain ⟨ge, t8⟩ := x8
  simp only at hdeep hfri
  generalize h9 : env.sample t8 = x9 at hdeep hfri
  obtain ⟨go, t9⟩ := x9
  simp only at hdeep hfri
  obtain ⟨hs1, hs2, hs3, hs4⟩ := sampleRows_samples (env := env) air.context.transitionOffsets.length
    air.context.traceColumns t9
  rw [← hs1] at hdeep
  rw [← hs2] at hfri
  generalize h10 : sampleRows env air.context.transitionOffsets.length air.context.traceColumns t9 = x10
    at hdeep hfri
  obtain ⟨rows, t10⟩ := x10
  simp only at hdeep hfri
  obtain ⟨hne, zs, q, ps, t11, hzs, ht11, hf, hlast⟩ := Fri.commitPhase_replay (by omega) hfri
  subst ht11
  generalize h12 : env.tr.challenge (env.appendField t11 last) = x12 at hnonce hq
  obtain ⟨chal, t12⟩ := x12
  simp only at hnonce hq hopen hr4
  unfold Fri.queryPhase at hq
  rw [if_neg (by
    intro hc
    rw [List.isEmpty_iff.mp hc] at hne
    simp at hne)] at hq
  simp only [Outcome.bind_eq_ok, Outcome.pure_eq, Outcome.ok.injEq, Prod.mk.injEq] at hq hr4
  obtain ⟨⟨io, t13⟩, hio, ql', hql, rfl, rfl, rfl⟩ := hq
  obtain ⟨rfl, rfl⟩ := hr4
  simp only at hql hopen
  obtain rfl := Outcome.ok.inj hproof
  have hframe : (round3 air d r1 r2 z).traceOodEvaluations
      = frameRows r1.tracePolys air.context.transitionOffsets d.tracePrimitiveRoot z := by
    simp only [round3, Frame.getTraceEvaluations, frameRows, List.map_map]
    rfl
  refine ⟨d, _, _, r1, r2, deep, layers, ps, hd, step1_eq hroots hrap ht1 hbound h2 h3 h4 h5
    (ofOptionUnwrap_ok.mp hz) (t7 := t7) (io := io) (t13 := t13) ?_ h8 h9 h10 hzs h12 ?_, ?_⟩
  · simp only
    rw [hframe, appendFrame_ok r1.tracePolys hpos, ← hframe, h7]
  · simp only [D.ldeRootOrder, iotaMax_of_lt D.small]
    exact hio
  · exact {
      first := ⟨_, hr1⟩
      rap := rfl
      second := hr2
      deep_poly := hdeep
      fri_start := hf.start
      fri_fold := hf.next
      fri_layers := fun k l hl => by
        rw [D.lde_length, Nat.pow_div (by
          have := (List.getElem?_eq_some_iff.mp hl).1
          rw [hne] at this
          omega) (by norm_num)]
        exact hf.layer k l hl
      fri_count := by rw [hne, D.rootOrder]; omega
      fri_zetas := hf.lengths
      fri_last := by rw [hf.stop]; exact hlast
      nonce := ⟨_, ofOptionUnwrap_ok.mp hnonce, rfl⟩
      queries := hql
      openings := hopen
      traceLength := rfl
      traceRoots := rfl
      frame := rfl
      compositionRoot := rfl
      evenOod := rfl
      oddOod := rfl
      friRoots := rfl }

end Verif
