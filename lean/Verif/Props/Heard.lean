import Verif.Lemmas.Heard
import Verif.Props.FiatShamir
import Verif.Props.RandomRun

/-!
# C89: the verifier of the code as a function of the messages
-/

namespace Verif.Props
open Verif.Spec Verif.Proximity

variable {T Ch : Type} {env : Env FE T}

theorem sentBy_length (toBytes : FE → Bytes) (proof : StarkProof FE) :
    (sentBy toBytes proof).length = proof.friLayersMerkleRoots.length + 5 := by
  simp [sentBy]

theorem sentBy_layer (toBytes : FE → Bytes) {proof : StarkProof FE} {i : Nat} {root : Commitment}
    (h : proof.friLayersMerkleRoots[i]? = some root) : (sentBy toBytes proof)[4 + i]? = some ([root.val], 0) := by
  obtain ⟨hi, rfl⟩ := List.getElem?_eq_some_iff.mp h
  unfold sentBy
  rw [List.append_assoc, List.getElem?_append_right (by simp), List.getElem?_append_left (by simpa using hi)]
  simp [hi]

theorem sentBy_last (toBytes : FE → Bytes) (proof : StarkProof FE) :
    (sentBy toBytes proof)[4 + proof.friLayersMerkleRoots.length]? = some ([toBytes proof.friLastValue], proof.nonce) := by
  unfold sentBy
  rw [List.getElem?_append_right (by simp; omega)]
  simp only [List.length_append, List.length_cons, List.length_nil, List.length_map]
  rw [show 4 + proof.friLayersMerkleRoots.length - (0 + 1 + 1 + 1 + 1 + proof.friLayersMerkleRoots.length) = 0 by omega]
  rfl

/-- **C89**, the verifier: with every function that is used for the transcript, the challenges that the verifier of the code
draws for a proof are those of the game, when its digests after each message are the ones that the transcript gives for the
messages so far; and the number of zeros it counts is enough for a factor if the digest of the game is. -/
theorem C89_transcript (hof : ∀ d, randomnessToField 252 d = .ok (env.ofDigest d)) {air : Air FE Ch}
    {proof : StarkProof FE} {d : Domain FE} {c : Challenges FE Ch} {t : T}
    (h : step1 env air proof d env.tr.init = .ok (c, t)) {a n w nb : Nat} (hlayers : proof.friLayersMerkleRoots.length = a)
    (hframe : proof.traceOodFrameEvaluations.data.length = w * proof.traceOodFrameEvaluations.rowWidth)
    (hb : ∀ boundary, air.boundaryConstraints c.rapChallenges = .ok boundary → boundary.length = nb)
    (horder : d.ldeRootOrder = n) (hn : n < 64) (l : Told Sent (a + 5)) (hl : l.val = sentBy env.toBytes proof) :
    ∃ r, ∃ (ε : Fin air.numRapChallenges → FE) (αB βB : Fin nb → FE)
        (αT βT : Fin air.context.numTransitionConstraints → FE) (z γe γo : FE)
        (γ : Fin (air.context.traceColumns * air.context.transitionOffsets.length) → FE) (ζ : Fin a → FE)
        (ι : Fin air.context.proofOptions.friNumberOfQueries → Fin (2 ^ n)),
      let H := fun l : Told Sent (a + 5) => replyFor env d.ldeRootsOfUnityCoset d.traceRootsOfUnity air.numRapChallenges nb
        air.context.numTransitionConstraints (air.context.traceColumns * air.context.transitionOffsets.length)
        air.context.proofOptions.friNumberOfQueries r l.val
      derived (d.ldeRootsOfUnityCoset ++ d.traceRootsOfUnity) n (digestsFor H l)
          = some (ε, αB, βB, αT, βT, z, γe, γo, γ, ζ, ι) ∧
        c = { challengesOf (air.rapChallenges (List.ofFn ε)) (List.ofFn αB) (List.ofFn βB) (List.ofFn αT) (List.ofFn βT) z
                γe γo (coeffRows air.context.transitionOffsets.length air.context.traceColumns (List.ofFn γ)) with
              zetas := List.ofFn ζ, iotas := List.ofFn fun i => (ι i).val, leadingZerosCount := c.leadingZerosCount } ∧
        ∀ g, g ≤ c.leadingZerosCount ↔ g ≤ 64 ∧ 2 ^ g ∣ beNat ((H l).work.val.take 8) := by
  obtain ⟨root0, rest, boundary, tz, t1, t2, t3, t4, tl, hroots, ht1, ht2, hbd, ht3, hz, ht4, htl, hio, hc⟩ :=
    step1_states hof h hframe
  have hbl : boundary.length = nb := hb boundary hbd
  clear hb h hbd
  rw [hbl] at ht3 hc
  obtain ⟨r, hr⟩ := (C85_samplers hof t3).2.2 d.ldeRootsOfUnityCoset d.traceRootsOfUnity c.z |>.1 ⟨tz, hz⟩
  rw [digests_eq] at hr
  have step : ∀ i m, l.val[i]? = some m → hearing env d.ldeRootsOfUnityCoset d.traceRootsOfUnity air.numRapChallenges
      (nb + nb + air.context.numTransitionConstraints + air.context.numTransitionConstraints)
      (air.context.traceColumns * air.context.transitionOffsets.length) 0 env.tr.init (l.val.take (i + 1))
      = m.1.foldl env.tr.append (drawnAfter env d.ldeRootsOfUnityCoset d.traceRootsOfUnity air.numRapChallenges
        (nb + nb + air.context.numTransitionConstraints + air.context.numTransitionConstraints)
        (air.context.traceColumns * air.context.transitionOffsets.length) i
        (hearing env d.ldeRootsOfUnityCoset d.traceRootsOfUnity air.numRapChallenges
          (nb + nb + air.context.numTransitionConstraints + air.context.numTransitionConstraints)
          (air.context.traceColumns * air.context.transitionOffsets.length) 0 env.tr.init (l.val.take i))) :=
    fun i m hm => hearing_take hm
  have s1 := step 0 _ (by rw [hl]; rfl)
  have s2 := step 1 _ (by rw [hl]; rfl)
  have s3 := step 2 _ (by rw [hl]; rfl)
  have s4 := step 3 _ (by rw [hl]; rfl)
  simp only [Nat.reduceAdd] at s1 s2 s3 s4
  unfold replyFor digestsFor Told.first
  dsimp only
  generalize hhear : hearing env d.ldeRootsOfUnityCoset d.traceRootsOfUnity air.numRapChallenges
      (nb + nb + air.context.numTransitionConstraints + air.context.numTransitionConstraints)
      (air.context.traceColumns * air.context.transitionOffsets.length) 0 env.tr.init = hear at *
  replace s1 : hear (l.val.take 1) = t1 := by
    rw [s1, ht1, hroots, ← hhear]
    rfl
  replace s2 : hear (l.val.take 2) = t2 := by
    rw [s2, ht2, hroots, s1]
    rfl
  replace s3 : hear (l.val.take 3) = t3 := by
    rw [s3, ht3, s2]
    rfl
  replace s4 : hear (l.val.take 4) = t4 := by
    rw [s4, ht4, s3, drawnAfter, hz]
    rfl
  generalize hdr : drawnAfter env d.ldeRootsOfUnityCoset d.traceRootsOfUnity air.numRapChallenges
      (nb + nb + air.context.numTransitionConstraints + air.context.numTransitionConstraints)
      (air.context.traceColumns * air.context.transitionOffsets.length) = dr at *
  have s5 : ∀ i root, proof.friLayersMerkleRoots[i]? = some root →
      hear (l.val.take (5 + i)) = env.tr.append (dr (4 + i) (hear (l.val.take (4 + i)))) root.val := by
    intro i root hi
    have := step (4 + i) _ (by rw [hl]; exact sentBy_layer env.toBytes hi)
    rw [show 5 + i = 4 + i + 1 by omega, this]
    rfl
  have hzs := sampleZetas_eq hof proof.friLayersMerkleRoots (fun i => dr (4 + i) (hear (l.val.take (4 + i)))) (by
    intro i root hi
    rw [← s5 i root hi, show 4 + (i + 1) = i + 5 by omega, Nat.add_comm 5 i, ← hdr]
    rfl)
  have hu0 : dr (4 + 0) (hear (l.val.take (4 + 0)))
      = env.tr.after (2 + air.context.traceColumns * air.context.transitionOffsets.length) t4 := by
    rw [Nat.add_zero, s4, ← hdr]
    rfl
  rw [hu0] at hzs
  have sl : hear (l.val.take (a + 5)) = tl := by
    have := step (4 + a) _ (by rw [hl, ← hlayers]; exact sentBy_last env.toBytes proof)
    rw [show 4 + a + 1 = a + 5 by omega] at this
    rw [this, htl, hzs, hlayers]
    rfl
  have hfull : l.val.take (a + 5) = l.val := List.take_of_length_le (by rw [hl, sentBy_length, hlayers])
  have hnonce : (l.val.getLastD default).2 = proof.nonce := by
    rw [hl, sentBy, List.getLastD_eq_getLast?, List.getLast?_append]
    rfl
  rw [horder] at hio
  have hio' : c.iotas = List.ofFn fun i : Fin air.context.proofOptions.friNumberOfQueries =>
      (positionOf n (env.tr.challenge (env.tr.after i (env.tr.append (env.tr.challenge tl).2 (beBytes 8 proof.nonce)))).1).val := by
    obtain ⟨t', h6⟩ := (C85_samplers hof (env.tr.append (env.tr.challenge tl).2 (beBytes 8 proof.nonce))).2.1 n
      air.context.proofOptions.friNumberOfQueries
    have h7 : iotaMax n = 2 ^ n := Nat.mod_eq_of_lt (Nat.pow_lt_pow_right (by norm_num) hn)
    rw [h7] at hio
    refine (congrArg Prod.fst (Outcome.ok.inj (hio.symm.trans h6))).trans ?_
    rw [digests_eq, List.map_ofFn]
    rfl
  have hzl : (sampleZetas env proof.friLayersMerkleRoots
        (env.tr.after (2 + air.context.traceColumns * air.context.transitionOffsets.length) t4)).1
      = List.ofFn fun i : Fin a => challengeOf (env.tr.challenge (env.tr.after 0 (hear (l.val.take (5 + i))))).1 := by
    rw [hzs]
    refine List.ext_getElem (by simp [hlayers]) fun i h1 h2 => ?_
    have hi : i < proof.friLayersMerkleRoots.length := by simpa using h1
    rw [List.getElem_map, List.getElem_zipIdx, List.getElem_ofFn, s5 i _ (List.getElem?_eq_getElem hi)]
    simp only [Nat.zero_add]
    rfl
  have hlz : c.leadingZerosCount = Grinding.leadingZerosOf env.keccak (env.tr.challenge tl).1 proof.nonce :=
    congrArg Challenges.leadingZerosCount hc
  rw [← hlz] at hc
  rw [hzl, hio'] at hc
  refine ⟨r, fun i => challengeOf (env.tr.challenge (env.tr.after (0 + i) t1)).1,
    fun i => challengeOf (env.tr.challenge (env.tr.after (0 + i) t2)).1,
    fun i => challengeOf (env.tr.challenge (env.tr.after (nb + i) t2)).1,
    fun i => challengeOf (env.tr.challenge (env.tr.after (nb + nb + i) t2)).1,
    fun i => challengeOf (env.tr.challenge (env.tr.after (nb + nb + air.context.numTransitionConstraints + i) t2)).1, c.z,
    challengeOf (env.tr.challenge (env.tr.after 0 t4)).1, challengeOf (env.tr.challenge (env.tr.after 1 t4)).1,
    fun i => challengeOf (env.tr.challenge (env.tr.after (2 + i) t4)).1,
    fun i => challengeOf (env.tr.challenge (env.tr.after 0 (hear (l.val.take (5 + i))))).1,
    fun i => positionOf n (env.tr.challenge (env.tr.after i (env.tr.append (env.tr.challenge tl).2 (beBytes 8 proof.nonce)))).1,
    ?_, ?_, ?_⟩
  · unfold derived
    dsimp only
    rw [s1, s2, s3, s4, sl, hfull, hnonce, hr]
    simp only [Nat.zero_add]
    rfl
  · exact hc
  · intro g
    rw [hlz, C52_check_iff, ← sl, hfull, hnonce]
    rfl

theorem step2_claims {air : Air FE Ch} {p p' : StarkProof FE} (h1 : p.traceOodFrameEvaluations = p'.traceOodFrameEvaluations)
    (h2 : p.compositionPolyEvenOodEvaluation = p'.compositionPolyEvenOodEvaluation)
    (h3 : p.compositionPolyOddOodEvaluation = p'.compositionPolyOddOodEvaluation) (d : Domain FE) (c : Challenges FE Ch) :
    step2 air p d c = step2 air p' d c := by
  unfold step2 oodBoundary
  rw [h1, h2, h3]

theorem deepWord_claims {p p' : StarkProof FE} (h1 : p.traceOodFrameEvaluations = p'.traceOodFrameEvaluations)
    (h2 : p.compositionPolyEvenOodEvaluation = p'.compositionPolyEvenOodEvaluation)
    (h3 : p.compositionPolyOddOodEvaluation = p'.compositionPolyOddOodEvaluation) (c : Challenges FE Ch) (g : FE)
    (x : Nat → FE) (cols : List (Nat → FE)) (even odd : Nat → FE) (s : Nat) :
    deepWord p c g x cols even odd s = deepWord p' c g x cols even odd s := by
  unfold deepWord deepValue
  rw [h1, h2, h3]

/-- **C89**, accepted proofs: the messages of an accepted proof convince the verifier of the game, with the digests that the
transcript gives for them, or the proof exhibits a collision.
Missing: the shape and the values of the openings of the trace, which the verifier does not check
(`C45_unused_data_accepted`, `C48_trace_paths_ignored`). -/
theorem C89_accepted_partial {PI : Type} (hof : ∀ d, randomnessToField 252 d = .ok (env.ofDigest d))
    {new : AirNew FE Ch PI} {pi : PI} {options : ProofOptions} {proof : StarkProof FE} {air : Air FE Ch}
    (hair : new proof.traceLength pi options = .ok air) {a b : Nat} (S : Setting air a b)
    (h : verify env new proof pi options = .ok true) {nb : Nat}
    (hb : ∀ ch boundary, air.boundaryConstraints ch = .ok boundary → boundary.length = nb) {roots queries : Nat}
    (shape : ProofShape proof a b air.context.traceColumns roots air.context.transitionOffsets.length queries)
    (hq : air.context.proofOptions.friNumberOfQueries ≤ queries)
    {layers : Nat → List FE} {trees : Nat → Merkle.Tree} (hl : CommitsLayers env proof a b layers trees)
    {even odd : Nat → FE} {tree : Merkle.Tree} (hh : CommitsHalves env proof a b even odd tree)
    {cols : List (Nat → FE)}
    (htr : ∀ d c t, Domain.new env.ta air = .ok d → step1 env air proof d env.tr.init = .ok (c, t) →
      ∀ (i : Nat) iota o, c.iotas[i]? = some iota → proof.deepPolyOpenings[i]? = some o →
        o.ldeTraceEvaluations = cols.map fun f => f iota)
    {rd : Reading Sent} (hrd : Understands rd env.toBytes proof a cols even odd layers)
    (l : Told Sent (a + 5)) (hsent : l.val = sentBy env.toBytes proof) :
    ∃ d w r, Domain.new env.ta air = .ok d ∧ env.ta.root (a + b) = some w ∧
      (rd.Convinces air d a b w (fun l => replyFor env d.ldeRootsOfUnityCoset d.traceRootsOfUnity air.numRapChallenges nb
          air.context.numTransitionConstraints (air.context.traceColumns * air.context.transitionOffsets.length)
          air.context.proofOptions.friNumberOfQueries r l.val) l ∨
        ∃ (i iota : Nat) (q : FriDecommitment FE) (o : DeepPolynomialOpenings FE), proof.queryList[i]? = some q ∧
          proof.deepPolyOpenings[i]? = some o ∧
          (QueryCollides env a b layers trees iota q ∨ OpeningCollides env even odd tree iota o)) := by
  obtain ⟨d, c, t, w, boundary, -, -, -, -, -, h1, h2, hw, -, -, -, -, -, -, hzl, -, hf1, hf2, hs2, hiol, hall⟩ :=
    C68_accepted_wins_partial hair S h shape hl hh htr
  obtain ⟨-, air', d', c', t', e1, e2, e3, hwork, -⟩ := verify_true h
  obtain rfl : air = air' := Outcome.ok.inj (hair.symm.trans e1)
  obtain rfl : d = d' := Outcome.ok.inj (h1.symm.trans e2)
  obtain ⟨rfl, rfl⟩ : c = c' ∧ t = t' := by simpa using Outcome.ok.inj (h2.symm.trans e3)
  obtain ⟨g, w', D⟩ := domain_new S.rows S.length S.blowup h1
  obtain ⟨r, ε, αB, βB, αT, βT, z, γe, γo, γ, ζ, ι, hder, hc, hlz⟩ := C89_transcript hof h2 shape.friLayers
    (by rw [hf2, hf1]) (hb _) D.ldeRootOrder D.small l hsent
  refine ⟨d, w, r, h1, hw, ?_⟩
  by_cases hcol : ∃ (i iota : Nat) (q : FriDecommitment FE) (o : DeepPolynomialOpenings FE), proof.queryList[i]? = some q ∧
      proof.deepPolyOpenings[i]? = some o ∧
      (QueryCollides env a b layers trees iota q ∨ OpeningCollides env even odd tree iota o)
  · exact Or.inr hcol
  left
  refine ⟨by rw [hsent, sentBy_length, shape.friLayers], (hlz _).1 hwork, _, hder, ?_⟩
  generalize c.leadingZerosCount = zeros at hc
  subst hc
  unfold StarkStrategy.Wins Reading.plays
  dsimp only
  rw [hsent, hrd.columns, hrd.halves]
  refine ⟨by rw [hrd.frame]; exact hf1, by rw [hrd.frame]; exact hf2, ?_, ?_⟩
  · rw [step2_claims hrd.frame hrd.even hrd.odd]
    exact hs2
  · intro i
    have hi : i.val < queries := i.isLt.trans_le hq
    have hq1 := List.getElem?_eq_getElem (show i.val < proof.queryList.length by rw [shape.queryCount]; exact hi)
    have ho1 := List.getElem?_eq_getElem (show i.val < proof.deepPolyOpenings.length by rw [shape.openingCount]; exact hi)
    obtain ⟨hlt, hv⟩ := hall i (ι i).val _ _ (by simp) hq1 ho1
    rcases hv with ⟨hv1, hv2⟩ | hv
    · constructor
      · rw [deepWord_claims hrd.frame hrd.even hrd.odd]
        have := hrd.layer 0 S.rows (ι i).val
        rw [List.length_nil]
        exact this.trans hv1
      · have hlen : ∀ j ≤ a, ((List.ofFn ζ).take j).length = j := fun j hj => by
          rw [List.length_take, List.length_ofFn, Nat.min_eq_left hj]
        intro j hj
        have := hv2 j hj
        simp only [hlen j hj.le, hrd.layer j hj, hrd.last]
        refine this.trans ?_
        split
        · rename_i hj'
          rw [hlen _ hj'.le, hrd.layer _ hj']
        · rfl
    · exact absurd ⟨i.val, _, _, _, hq1, ho1, hv⟩ hcol

section examples
open Verif.Examples Verif.ExampleAirs TraceTable

theorem drawn_toField (t : UInt8) : envDrawn.tr.toField envDrawn.ofDigest t = envStark.tr.toField envStark.ofDigest t := by
  show (((beNat (digest t).val % 2 ^ 251 : Nat) : FE), t + 1) = _
  rw [toFieldStark]
  congr 2
  revert t
  decide +kernel

theorem drawn_sampleZOod (lde trace : List FE) (t : UInt8) (h : lde.length + trace.length < 256) :
    envDrawn.tr.sampleZOod envDrawn.ofDigest lde trace t ≠ none := by
  have h1 := sampleZOodStark lde trace t h
  unfold Transcript.sampleZOod at h1 ⊢
  split at h1
  · rename_i hex
    obtain ⟨k, hk⟩ := hex
    rw [dif_pos ⟨k, by rw [drawn_toField]; exact hk⟩]
    simp
  · exact absurd rfl h1

/-- The AIR of squares over the field of the program. -/
def airDrawn : Air FE Unit := getOk (quadratic (2 ^ 1) 2 (options17 3)) rfl

theorem airDrawn_eq : quadratic (2 ^ 1) 2 (options17 3) = .ok airDrawn := rfl

theorem settingDrawn : Setting airDrawn 1 1 :=
  ⟨le_rfl, le_rfl, rfl, rfl, by decide +kernel, quadratic_fits (by norm_num) _ _ airDrawn_eq⟩

theorem drawn_satisfy : Satisfies airDrawn [[2], [4]] 1 () := by
  refine (C54_quadratic (n := 2 ^ 1) airDrawn_eq rfl (by norm_num) (by decide)).mpr ?_
  decide +kernel

/-- The hypotheses of `C89_accepted_partial`, and with them those of `C89_transcript`, are met by the honest proof for two
squares. -/
example : ∃ (proof : StarkProof FE) (layers : Nat → List FE) (trees : Nat → Merkle.Tree) (even odd : Nat → FE)
    (tree : Merkle.Tree) (cols : List (Nat → FE)) (rd : Reading Sent),
    quadratic proof.traceLength 2 (options17 3) = .ok airDrawn ∧ Setting airDrawn 1 1 ∧
    verify envDrawn quadratic proof 2 (options17 3) = .ok true ∧
    (∀ ch boundary, airDrawn.boundaryConstraints ch = .ok boundary → boundary.length = 1) ∧
    ProofShape proof 1 1 airDrawn.context.traceColumns 1 airDrawn.context.transitionOffsets.length
      airDrawn.context.proofOptions.friNumberOfQueries ∧
    CommitsLayers envDrawn proof 1 1 layers trees ∧ CommitsHalves envDrawn proof 1 1 even odd tree ∧
    (∀ d c t, Domain.new envDrawn.ta airDrawn = .ok d → step1 envDrawn airDrawn proof d envDrawn.tr.init = .ok (c, t) →
      ∀ (i : Nat) iota o, c.iotas[i]? = some iota → proof.deepPolyOpenings[i]? = some o →
        o.ldeTraceEvaluations = cols.map fun f => f iota) ∧
    Understands rd envDrawn.toBytes proof 1 cols even odd layers ∧
    (sentBy envDrawn.toBytes proof).length = 1 + 5 := by
  have hsat : ∀ ch : Unit, SatisfiesExtended airDrawn [[2], [4]] 1 ch emptyTable :=
    fun ch => .inl ⟨rfl, rfl, drawn_satisfy⟩
  have hext : ∀ (ch : Unit) (aux : TraceTable FE) (bcs : List (BoundaryConstraint FE)),
      airDrawn.buildAuxiliaryTrace (ofRows [[2], [4]] 1) ch = .ok aux → airDrawn.boundaryConstraints ch = .ok bcs →
      SatisfiesExtended airDrawn [[2], [4]] 1 ch aux := by
    intro ch aux bcs h1 _
    obtain rfl := Outcome.ok.inj h1
    exact hsat _
  obtain ⟨proof, hp⟩ := C44_prover_succeeds (env := envDrawn) settingDrawn (by norm_num) (by decide)
    airDrawn_eq (by decide +kernel) (rows := [[2], [4]]) (k := 1) (by norm_num) rfl (by decide)
    (fun ch => ⟨_, quadratic_polynomial _ _ _ airDrawn_eq ch⟩) (fun _ _ => ⟨_, _, rfl, rfl, hsat _⟩)
    (samplingEnds_of settingDrawn fun lde trace t h1 h2 => drawn_sampleZOod lde trace t (by rw [h1, h2]; norm_num))
    (fun c => generateNonce_zero _ c)
  have hv := C44_honest_proofs_verify settingDrawn (by
      rw [show ((airDrawn.context.proofOptions.cosetOffset : Nat) : FE) = 3 from rfl]
      exact three_not_square) (by decide) airDrawn_eq rfl (by norm_num) rfl
    (by decide) (fun ch => ⟨_, quadratic_polynomial _ _ _ airDrawn_eq ch⟩) (fun _ _ aux bcs => hext _ aux bcs) hp
  obtain ⟨d, c, t, r1, r2, deep, layers, ps, hd, hs, U⟩ :=
    C49_same_challenges (env := envDrawn) (trace := TraceTable.ofRows [[2], [4]] 1) (a := 1) (b := 1)
      (air := airDrawn) rfl (by norm_num) rfl rfl hp
  obtain ⟨g, w, D⟩ := domain_new settingDrawn.rows settingDrawn.length settingDrawn.blowup hd
  obtain ⟨t1, hr1⟩ := U.first
  obtain ⟨full, H, boundary, R1, hplen, hfull, hbc, hcolb, hHdeg, hHeval, R2⟩ :=
    honest_rounds (k := 1) D settingDrawn.length settingDrawn.blowup settingDrawn.extended settingDrawn.offset
      settingDrawn.fits (by norm_num) (rows := [[2], [4]]) rfl (by decide) hr1 (quadratic_polynomial _ _ _ airDrawn_eq _)
      (hext _) U.second
  obtain ⟨aux, haux, hshape⟩ := shape_run D settingDrawn.length settingDrawn.blowup settingDrawn.extended
    settingDrawn.offset settingDrawn.fits (by norm_num) (rows := [[2], [4]]) rfl (by decide) hs U
    (quadratic_polynomial _ _ _ airDrawn_eq _) (hext _)
  obtain rfl := Outcome.ok.inj haux
  obtain ⟨-, -, hg1, hg2, hi, hlt⟩ := step1_inv hs
  have hframe : (round3 airDrawn d r1 r2 c.z).traceOodEvaluations
      = frameRows r1.tracePolys airDrawn.context.transitionOffsets g c.z := by
    simp only [round3, Frame.getTraceEvaluations, frameRows, List.map_map, D.tracePrimitiveRoot]
    rfl
  obtain ⟨P, hP1, hP2, -⟩ := computeDeep_ok (air := airDrawn) (g := g) (z := c.z) (r2 := r2)
    (r3 := round3 airDrawn d r1 r2 c.z) hframe rfl rfl hg2 (by rw [hplen, hg1]) (by positivity) R1.degree
    (by rw [R2.even]; exact even_degree _ _ hHdeg) (by rw [R2.odd]; exact odd_degree _ _ hHdeg)
    c.gammaEven c.gammaOdd
  have hdp := U.deep_poly
  rw [D.tracePrimitiveRoot, hP1] at hdp
  obtain rfl := Outcome.ok.inj hdp
  obtain ⟨values, trees, hc⟩ := honest_layers D U hP2
  refine ⟨proof, values, trees, _, _, r2.compositionPolyMerkleTree,
    r1.tracePolys.map fun p s => p.eval (w ^ s * (airDrawn.context.proofOptions.cosetOffset : FE)),
    { main := fun _ => r1.tracePolys.map fun p s => p.eval (w ^ s * (airDrawn.context.proofOptions.cosetOffset : FE))
      aux := fun _ => []
      halves := fun _ => (_, _)
      claims := fun _ => proof
      layer := fun _ s => (values 0).getD s 0
      last := fun _ => proof.friLastValue }, by rw [U.traceLength]; exact airDrawn_eq, settingDrawn, hv, ?_, hshape, hc,
    ⟨R2.tree, by rw [U.compositionRoot, R2.root]⟩, ?_, ⟨List.append_nil _, rfl, rfl, rfl, rfl, ?_, rfl⟩, ?_⟩
  · intro ch boundary h
    obtain rfl := Outcome.ok.inj h
    rfl
  · intro d' c' t' hd' hs' i iota o hi ho
    obtain rfl : d = d' := Outcome.ok.inj (hd.symm.trans hd')
    obtain ⟨rfl, rfl⟩ : c = c' ∧ t = t' := by simpa using Outcome.ok.inj (hs.symm.trans hs')
    rw [D.ldeRootOrder] at hlt
    obtain ⟨o', ho1, -, -, ho2, -⟩ := openDeepAt_ok D R1 R2 (hlt iota (List.mem_of_getElem? hi))
    have := mapOutcome_getElem? U.openings hi
    rw [ho1, ho] at this
    obtain rfl : o' = o := by simpa using this
    rw [ho2, List.map_map]
    rfl
  · intro j hj s
    obtain rfl : j = 0 := by omega
    rfl
  · rw [sentBy_length, hshape.friLayers]

end examples

end Verif.Props
