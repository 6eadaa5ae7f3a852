import Verif.Lemmas.Extracted
import Verif.Props.Heard
import Verif.Props.TraceOpenings
import Verif.Props.Grinding

/-!
# C92: soundness with a random function for the hashes and for the verifier
-/

namespace Verif.Props
open Verif.Spec Verif.Proximity Random

variable {T Ch : Type}

theorem ofFn_getD {l : List FE} {c : Nat} (h : l.length = c) : List.ofFn (fun j : Fin c => l.getD j 0) = l := by
  subst h
  refine List.ext_getElem (by simp) fun i h1 h2 => ?_
  rw [List.getElem_ofFn, List.getD_eq_getElem?_getD, List.getElem?_eq_getElem h2]
  rfl

/-- What is hashed when the messages are asked for. -/
def meaning {L k n : Nat} {R : Type} (ask : List (Commitment × R) → Question L k n) (l : List (Commitment × R))
    (y : Told (Said k) n) : Meant k n := (hashed Question.text Prod.fst ask l, y)

section accepted
variable {L a b : Nat} {env : Env FE T} {air : Air FE Ch} {d : Domain FE} {w : FE} {nb q r c0 c1 roots queries : Nat}
  {keccak : Bytes → Commitment} {toBytes : FE → Bytes}
  {O : Question L (air.context.traceColumns * air.context.transitionOffsets.length) (a + 5) →
    Commitment × Reply air.numRapChallenges nb air.context.numTransitionConstraints
      (air.context.traceColumns * air.context.transitionOffsets.length) q r}
  {ask : List (Commitment × Reply air.numRapChallenges nb air.context.numTransitionConstraints
      (air.context.traceColumns * air.context.transitionOffsets.length) q r) →
    Question L (air.context.traceColumns * air.context.transitionOffsets.length) (a + 5)}
  {N : Nat} {p : StarkProof FE} {l : Told (Said (air.context.traceColumns * air.context.transitionOffsets.length)) (a + 5)}
  {time : Nat → Nat} {c : Challenges FE Ch}

/-- Without a hit, what an accepted proof opens is what its roots stood for when they were sent. -/
theorem extracted_rows (hinj : Function.Injective toBytes) (hlen : ∀ x, (toBytes x).length = 32) (S : Setting air a b)
    (hd : Domain.new env.ta air = .ok d) (hw : env.ta.root (a + b) = some w)
    (hcols : c0 + c1 = air.context.traceColumns) (hroots : 1 ≤ roots) (hroots' : c1 = 0 ∨ 2 ≤ roots)
    (shape : ProofShape p a b air.context.traceColumns roots air.context.transitionOffsets.length queries)
    (hno : ¬ Hit Question.text Prod.fst ask (namedBy ask) N O)
    (hio : InOrder ask (answers O ask N) l time)
    (acc : Accepts { env with hashes := keccakHashes (hashOf keccak O) toBytes } air d a b (digestsOf O) p l c)
    (htr : TraceOpened (keccakHashes (hashOf keccak O) toBytes) c0 p c.iotas)
    (hask : HashesAsked keccak toBytes O ask N p c0 (a + b) c.iotas) {i iota : Nat} (hi : c.iotas[i]? = some iota)
    (hlt : iota < 2 ^ (a + b)) (hzeta : c.zetas.length = a) (hiq : i < queries) :
    let rd := extracted toBytes a b c0 c1 air.context.traceColumns
      (k := air.context.traceColumns * air.context.transitionOffsets.length)
    let x := fun j => meaning ask (answers O ask (time j)) (l.first (j + 1))
    rd.layer (x 4) iota = deepWord p c d.tracePrimitiveRoot (fun s => w ^ s * (air.context.proofOptions.cosetOffset : FE))
        (rd.main (x 0) ++ rd.aux (x 1)) (rd.halves (x 2)).1 (rd.halves (x 2)).2 iota ∧
      QueryPasses a b (air.context.proofOptions.cosetOffset : FE) w (fun j => rd.layer (x (4 + j))) p.friLastValue
        (fun j => c.zetas.getD j 0) iota := by
  intro rd x
  obtain ⟨g, w', D⟩ := domain_new S.rows S.length S.blowup hd
  obtain rfl : w = w' := Option.some.inj (hw.symm.trans D.hw)
  have hl : l.val.length = a + 5 := by rw [acc.said, saidBy_length, shape.friLayers]
  have hat : ∀ j < a + 5, time j < N ∧ ask (answers O ask (time j)) = .inr (l.first (j + 1)) := by
    intro j hj
    obtain ⟨h1, h2⟩ := hio.asked j (by omega)
    rw [answers_length] at h1
    rw [answers_prefix O ask h1.le] at h2
    exact ⟨h1, h2⟩
  obtain ⟨qq, hqq⟩ : ∃ qq, p.queryList[i]? = some qq :=
    ⟨_, List.getElem?_eq_getElem (by rw [shape.queryCount]; exact hiq)⟩
  obtain ⟨o, hoo⟩ : ∃ o, p.deepPolyOpenings[i]? = some o :=
    ⟨_, List.getElem?_eq_getElem (by rw [shape.openingCount]; exact hiq)⟩
  obtain ⟨s1, s2, s3, s4⟩ := shape.query qq (List.mem_of_getElem? hqq)
  obtain ⟨o1, o2, o3, o4⟩ := shape.opening o (List.mem_of_getElem? hoo)
  have Q := (step3_true.mp acc.fri).2.2 i qq iota _ hqq hi (D.lde_getElem? hlt)
  rw [D.ldeRootOrder] at Q
  obtain ⟨qq', hqq', P⟩ := step4_true (by rw [D.rootOrder]; exact getRoot_ok.mpr D.hg) acc.deep i iota o _ hi hoo
    (D.lde_getElem? hlt)
  obtain rfl : qq = qq' := Option.some.inj (hqq.symm.trans hqq')
  -- the rows
  have row : ∀ (spot : Spot) (j h : Nat) (path : MerkleProof) (values : List FE) (root : Commitment) (s : Nat),
      spot.query = i → spot.opening p c0 = some (path, values) → j < a + 5 → l.val[j]? = some (.root (some root)) →
      path.merklePath.length = h →
      Merkle.climb (nodeHash (hashOf keccak O)) path.merklePath (spot.index (a + b) iota)
        (hashOf keccak O (values.flatMap toBytes)) = root →
      s % 2 ^ h = spot.index (a + b) iota % 2 ^ h → rowBehind toBytes (x j) h values.length s = values := by
    rintro spot j h path values root s rfl ho hj hr rfl hcl hs
    exact row_of_opening hinj hlen hno (hat j hj).1 (hat j hj).2 (by rw [latest_first hr]; rfl)
      (hask spot iota path values hi ho) hcl hs
  have hpath : ∀ (ls : List MerkleProof), ls.map (·.merklePath.length) = (List.range a).map (fun k => a + b - k) →
      ∀ j < a, ∃ p, ls[j]? = some p ∧ p.merklePath.length = a + b - j := by
    intro ls hls j hj
    have hlen : ls.length = a := by simpa using congrArg List.length hls
    refine ⟨ls[j], List.getElem?_eq_getElem (by omega), ?_⟩
    have := congrArg (fun l => l[j]?) hls
    simp only [List.getElem?_map, List.getElem?_eq_getElem (show j < ls.length by omega), List.getElem?_range hj,
      Option.map_some, Option.some.injEq] at this
    exact this
  have hmain : (rd.main (x 0)).map (fun f => f iota) = o.ldeTraceEvaluations.take c0 := by
    have h0 : 0 < p.ldeTraceMerkleRoots.length := by rw [shape.traceRoots]; omega
    have h1 : 0 < o.ldeTraceMerkleProofs.length := by omega
    have hop : (Spot.main i).opening p c0 = some (o.ldeTraceMerkleProofs[0], o.ldeTraceEvaluations.take c0) := by
      simp [Spot.opening, hoo, List.getElem?_eq_getElem h1]
    have hv := htr i iota _ _ _ hi (.main i) (.inl rfl) hop (List.getElem?_eq_getElem h0)
    have hrow := row (.main i) 0 (a + b) _ _ p.ldeTraceMerkleRoots[0] iota rfl hop (by omega) (by
      rw [acc.said]
      simp only [saidBy, List.cons_append, List.getElem?_cons_zero, List.getElem?_eq_getElem h0])
      (o3 _ (List.getElem_mem h1)) (of_decide_eq_true hv).symm rfl
    have hc0 : (o.ldeTraceEvaluations.take c0).length = c0 := by rw [List.length_take, o4]; omega
    rw [hc0] at hrow
    show (List.ofFn fun (j : Fin c0) s => (rowBehind toBytes (x 0) (a + b) c0 s).getD j 0).map (fun f => f iota) = _
    rw [List.map_ofFn]
    show List.ofFn (fun j : Fin c0 => (rowBehind toBytes (x 0) (a + b) c0 iota).getD j 0) = _
    rw [hrow, ofFn_getD hc0]
  have haux : (rd.aux (x 1)).map (fun f => f iota) = o.ldeTraceEvaluations.drop c0 := by
    have hc1 : (o.ldeTraceEvaluations.drop c0).length = c1 := by rw [List.length_drop, o4]; omega
    show (List.ofFn fun (j : Fin c1) s => (rowBehind toBytes (x 1) (a + b) c1 s).getD j 0).map (fun f => f iota) = _
    rw [List.map_ofFn]
    show List.ofFn (fun j : Fin c1 => (rowBehind toBytes (x 1) (a + b) c1 iota).getD j 0) = _
    rcases hroots' with hz | hroots'
    · subst hz
      rw [List.length_eq_zero_iff.mp hc1]
      rfl
    have h0 : 1 < p.ldeTraceMerkleRoots.length := by rw [shape.traceRoots]; omega
    have h1 : 1 < o.ldeTraceMerkleProofs.length := by omega
    have hop : (Spot.aux i).opening p c0 = some (o.ldeTraceMerkleProofs[1], o.ldeTraceEvaluations.drop c0) := by
      simp [Spot.opening, hoo, List.getElem?_eq_getElem h1]
    have hv := htr i iota _ _ _ hi (.aux i) (.inr rfl) hop (List.getElem?_eq_getElem h0)
    have hrow := row (.aux i) 1 (a + b) _ _ p.ldeTraceMerkleRoots[1] iota rfl hop (by omega) (by
      rw [acc.said]
      simp only [saidBy, List.cons_append, List.getElem?_cons_succ, List.getElem?_cons_zero, List.getElem?_eq_getElem h0])
      (o3 _ (List.getElem_mem h1)) (of_decide_eq_true hv).symm rfl
    rw [hc1] at hrow
    rw [hrow, ofFn_getD hc1]
  have hhalves : rowBehind toBytes (x 2) (a + b) 2 iota
      = [o.ldeCompositionPolyEvenEvaluation, o.ldeCompositionPolyOddEvaluation] := by
    exact row (.checked (.composition i)) 2 (a + b) o.ldeCompositionPolyProof _ p.compositionPolyRoot iota rfl
      (by simp [Spot.opening, Place.opening, hoo]) (by omega) (by rw [acc.said]; rfl) o1
      (of_decide_eq_true P.opened).symm rfl
  have key : ∀ j < a, ∃ ζ, c.zetas[j]? = some ζ ∧ ∃ v vs,
      qq.layersEvaluations[j]? = some v ∧ rd.layer (x (4 + j)) (iota % 2 ^ (a + b - j)) = v ∧
      rd.layer (x (4 + j)) ((iota + 2 ^ (a + b - j) / 2) % 2 ^ (a + b - j)) = vs ∧
      foldValue ζ ((w ^ iota * (air.context.proofOptions.cosetOffset : FE)) ^ 2 ^ j) v vs
        = (qq.layersEvaluations[j + 1]?).getD p.friLastValue := by
    intro j hj
    obtain ⟨path, hp1, hp2⟩ := hpath _ s3 j hj
    obtain ⟨paths, hp3, hp4⟩ := hpath _ s4 j hj
    have hv : qq.layersEvaluations[j]? = some qq.layersEvaluations[j] := List.getElem?_eq_getElem (by omega)
    have hvs : qq.layersEvaluationsSym[j]? = some qq.layersEvaluationsSym[j] := List.getElem?_eq_getElem (by omega)
    have hr : p.friLayersMerkleRoots[j]? = some (p.friLayersMerkleRoots[j]'(by rw [shape.friLayers]; exact hj)) :=
      List.getElem?_eq_getElem _
    obtain ⟨ζ, hζ, H⟩ := Q.2 j _ path _ paths _ hr hp1 hv hp3 hvs
    have hsaid := saidBy_layer (air.context.traceColumns * air.context.transitionOffsets.length) hr
    rw [← acc.said] at hsaid
    have hx : (x (4 + j)).2.val.length - 5 = j := by
      show (l.first (4 + j + 1)).val.length - 5 = j
      rw [first_length (by omega)]
      omega
    have hlay : ∀ s, rd.layer (x (4 + j)) s = (rowBehind toBytes (x (4 + j)) (a + b - j) 1 s).getD 0 0 := by
      intro s
      show (rowBehind toBytes (x (4 + j)) (a + b - ((x (4 + j)).2.val.length - 5)) 1 s).getD 0 0 = _
      rw [hx]
    refine ⟨ζ, hζ, _, _, hv, ?_, ?_, H.folds⟩
    · rw [hlay]
      have := row (.checked (.layer i j)) (4 + j) (a + b - j) path [qq.layersEvaluations[j]] _ (iota % 2 ^ (a + b - j)) rfl
        (by simp only [Spot.opening, Place.opening, hqq, Option.bind_eq_bind, Option.bind_some, hp1, hv, hp3, hvs]; rfl) (by omega) hsaid hp2
        (by rw [List.flatMap_singleton]; exact (of_decide_eq_true H.opened).symm) (Nat.mod_mod _ _)
      rw [show [qq.layersEvaluations[j]].length = 1 from rfl] at this
      rw [this]
      rfl
    · rw [hlay]
      have := row (.checked (.opposite i j)) (4 + j) (a + b - j) paths [qq.layersEvaluationsSym[j]] _
        ((iota + 2 ^ (a + b - j) / 2) % 2 ^ (a + b - j)) rfl
        (by simp only [Spot.opening, Place.opening, hqq, Option.bind_eq_bind, Option.bind_some, hp1, hv, hp3, hvs]; rfl) (by omega) hsaid hp4
        (by rw [List.flatMap_singleton]; exact (of_decide_eq_true H.openedSym).symm) rfl
      rw [show [qq.layersEvaluationsSym[j]].length = 1 from rfl] at this
      rw [this]
      rfl
  constructor
  · obtain ⟨ζ, -, v, vs, hv, hv', -, -⟩ := key 0 S.rows
    change rd.layer (x 4) (iota % 2 ^ (a + b)) = v at hv'
    rw [Nat.mod_eq_of_lt hlt] at hv'
    rw [hv']
    have hval := P.value
    rw [hv] at hval
    rw [Option.some.inj hval, D.tracePrimitiveRoot]
    unfold deepWord deepValue openingAt
    have e1 : (rd.halves (x 2)).1 iota = o.ldeCompositionPolyEvenEvaluation := by
      show (rowBehind toBytes (x 2) (a + b) 2 iota).getD 0 0 = _
      rw [hhalves]
      rfl
    have e2 : (rd.halves (x 2)).2 iota = o.ldeCompositionPolyOddEvaluation := by
      show (rowBehind toBytes (x 2) (a + b) 2 iota).getD 1 0 = _
      rw [hhalves]
      rfl
    simp only [List.map_append]
    rw [hmain, haux, List.take_append_drop, e1, e2]
  · intro j hj
    obtain ⟨ζ, hζ, v, vs, hv, hv', hvs', hf⟩ := key j hj
    have hζ' : c.zetas.getD j 0 = ζ := by rw [List.getD_eq_getElem?_getD, hζ]; rfl
    show foldValue (c.zetas.getD j 0) _ (rd.layer (x (4 + j)) _) (rd.layer (x (4 + j)) _) = _
    rw [hζ', hv', hvs', hf]
    by_cases hj1 : j + 1 < a
    · obtain ⟨-, -, v1, -, hv1, hv1', -, -⟩ := key (j + 1) hj1
      rw [if_pos hj1, hv1]
      exact hv1'.symm
    · rw [if_neg hj1, List.getElem?_eq_none (by omega)]
      rfl

/-- Without a hit, the words that the roots of an accepted proof stood for when they were sent convince the verifier. -/
theorem extracted_not_lost (hinj : Function.Injective toBytes) (hlen : ∀ x, (toBytes x).length = 32) (S : Setting air a b)
    (hd : Domain.new env.ta air = .ok d) (hw : env.ta.root (a + b) = some w)
    (hcols : c0 + c1 = air.context.traceColumns) (hroots : 1 ≤ roots) (hroots' : c1 = 0 ∨ 2 ≤ roots)
    (shape : ProofShape p a b air.context.traceColumns roots air.context.transitionOffsets.length queries)
    (hq : q ≤ queries)
    (hno : ¬ Hit Question.text Prod.fst ask (namedBy ask) N O)
    (hio : InOrder ask (answers O ask N) l time)
    (acc : Accepts { env with hashes := keccakHashes (hashOf keccak O) toBytes } air d a b (digestsOf O) p l c)
    (htr : TraceOpened (keccakHashes (hashOf keccak O) toBytes) c0 p c.iotas)
    (hask : HashesAsked keccak toBytes O ask N p c0 (a + b) c.iotas) {R m : Nat} {Q : List (List FE) → Prop}
    (hdec : ¬ DecodesTo d w air.context.proofOptions.cosetOffset a b R
      ((extracted toBytes a b c0 c1 air.context.traceColumns).main
        (meaning ask (answers O ask (time 0)) (l.first 1))) Q) [Inhabited (Reply air.numRapChallenges nb
      air.context.numTransitionConstraints (air.context.traceColumns * air.context.transitionOffsets.length) q r)] :
    ¬ Lost (extracted toBytes a b c0 c1 air.context.traceColumns) air d a b w R m Q
      (wordsOf (meaning ask) (answers O ask N) l time) (answersTo Prod.snd (answers O ask N) l time) := by
  have hl : l.val.length = a + 5 := by rw [acc.said, saidBy_length, shape.friLayers]
  have hat : ∀ j < a + 5, time j < N ∧ ask (answers O ask (time j)) = .inr (l.first (j + 1)) := by
    intro j hj
    obtain ⟨h1, h2⟩ := hio.asked j (by omega)
    rw [answers_length] at h1
    rw [answers_prefix O ask h1.le] at h2
    exact ⟨h1, h2⟩
  have hwl : (wordsOf (meaning ask) (answers O ask N) l time).length = a + 5 := by simp [wordsOf, hl]
  let l' : Told (Meant (air.context.traceColumns * air.context.transitionOffsets.length) (a + 5)) (a + 5) :=
    ⟨wordsOf (meaning ask) (answers O ask N) l time, hwl.le⟩
  let H' : Told (Meant (air.context.traceColumns * air.context.transitionOffsets.length) (a + 5)) (a + 5) → Reply
      air.numRapChallenges nb air.context.numTransitionConstraints
      (air.context.traceColumns * air.context.transitionOffsets.length) q r :=
    fun y => digestsOf O (l.first y.val.length)
  have hH : ∀ j ≤ a + 5, H' (l'.first j) = digestsOf O (l.first j) := by
    intro j hj
    show digestsOf O (l.first (l'.first j).val.length) = _
    rw [first_length (y := l') (by show j ≤ (wordsOf _ _ _ _).length; omega)]
  have hword : ∀ j < a + 5, l'.val.getD j default = meaning ask (answers O ask (time j)) (l.first (j + 1)) := by
    intro j hj
    show (wordsOf (meaning ask) (answers O ask N) l time).getD j default = _
    unfold wordsOf
    rw [List.getD_eq_getElem?_getD, List.getElem?_map, List.getElem?_range (by omega), Option.map_some,
      answers_prefix O ask (hat j hj).1.le]
    rfl
  have hreplies : answersTo Prod.snd (answers O ask N) l time = repliesTo H' l' := by
    unfold answersTo repliesTo
    rw [show l'.val.length = a + 5 from hwl, hl]
    refine List.map_congr_left fun j hj => ?_
    have hj := List.mem_range.1 hj
    rw [answers_getElem O ask (hat j hj).1, (hat j hj).2, hH _ (by omega)]
    rfl
  rw [hreplies]
  have hsaid : ∀ j m, (saidBy (air.context.traceColumns * air.context.transitionOffsets.length) p)[j]? = some m →
      latest (l.first (j + 1)) = m := fun j m h => latest_first (by rw [acc.said]; exact h)
  refine not_lost (H := H') (l := l') _ S.rows ?_ (by rw [hword 0 (by omega)]; exact hdec)
  obtain ⟨ε, αB, βB, αT, βT, z, γe, γo, γ, ζ, ι, hder, hc⟩ := acc.drawn
  have hself : l.first (a + 5) = l := told_first_self l hl.le
  have hself' : l'.first (a + 5) = l' := told_first_self l' hwl.le
  have hHl : H' l' = digestsOf O l := by
    have := hH (a + 5) le_rfl
    rwa [hself, hself'] at this
  have hdg : digestsFor H' l' = digestsFor (digestsOf O) l := by
    unfold digestsFor
    rw [hH 1 (by omega), hH 2 (by omega), hH 3 (by omega), hH 4 (by omega), hH (a + 5) le_rfl]
    simp only [Prod.mk.injEq, true_and, and_true]
    funext i
    rw [hH _ (by omega)]
  refine ⟨hwl, by rw [hHl]; exact acc.work, _, by rw [hdg]; exact hder, ?_⟩
  have hz : c.zetas = List.ofFn ζ := by rw [hc]
  have hi : c.iotas = List.ofFn fun i => (ι i).val := by rw [hc]
  have hrows := fun i : Fin q => extracted_rows hinj hlen S hd hw hcols hroots hroots' shape hno hio acc htr hask
    (i := i) (iota := (ι i).val) (by rw [hi]; simp) (ι i).isLt (by rw [hz]; simp) (i.isLt.trans_le hq)
  set rd := extracted toBytes a b c0 c1 air.context.traceColumns
      (k := air.context.traceColumns * air.context.transitionOffsets.length) with hrd
  have hclaims : rd.claims (l'.val.getD 3 default) =
      { traceLength := 0, ldeTraceMerkleRoots := [],
        traceOodFrameEvaluations := p.traceOodFrameEvaluations,
        compositionPolyRoot := ⟨List.replicate 32 0, List.length_replicate⟩,
        compositionPolyEvenOodEvaluation := p.compositionPolyEvenOodEvaluation,
        compositionPolyOddOodEvaluation := p.compositionPolyOddOodEvaluation, friLayersMerkleRoots := [], friLastValue := 0,
        queryList := [], deepPolyOpenings := [], nonce := 0 } := by
    rw [hword 3 (by omega), hrd]
    unfold extracted meaning
    dsimp only
    rw [hsaid 3 _ rfl]
    dsimp only
    rw [ofFn_getD (by rw [shape.frameData, Nat.mul_comm]), ← shape.frameWidth]
  have hlast : rd.last (l'.val.getD (4 + a) default) = p.friLastValue := by
    rw [hword (4 + a) (by omega), hrd]
    unfold extracted meaning
    dsimp only
    have := saidBy_last (air.context.traceColumns * air.context.transitionOffsets.length) p
    rw [shape.friLayers] at this
    rw [hsaid _ _ this]
  generalize hzc : c.leadingZerosCount = zeros at hc
  have hclaim := acc.claims
  rw [hz] at hrows
  subst hc
  unfold StarkStrategy.Wins Reading.plays Reading.columns
  dsimp only
  rw [hclaims, hword 0 (by omega), hword 1 (by omega), hword 2 (by omega), List.length_nil, hword (4 + 0) (by omega), hlast]
  refine ⟨shape.frameWidth, shape.frameData, ?_, ?_⟩
  · refine (step2_claims (p' := p) rfl rfl rfl d _).trans ?_
    exact hclaim
  · intro i
    obtain ⟨h1, h2⟩ := hrows i
    constructor
    · exact h1.trans (deepWord_claims (p := p) rfl rfl rfl _ _ _ _ _ _ _)
    · have hlen : ∀ j ≤ a, ((List.ofFn ζ).take j).length = j := fun j hj => by
        rw [List.length_take, List.length_ofFn, Nat.min_eq_left hj]
      intro j hj
      have := h2 j hj
      simp only [hlen j hj.le]
      rw [hword (4 + j) (by omega)]
      refine this.trans ?_
      split
      · rename_i hj'
        rw [hlen _ hj'.le, hword _ (by omega)]
      · rfl

end accepted

/-- **C92.** The hash function of the Merkle trees and the digests of the verifier are drawn at random, as one function `O`.
A prover asks for `N` values of it, each time for the hash of a message or for the digests after the messages so far (roots
and values) that it likes, chosen from the values before, and makes a proof from them. The probability that the verifier
accepts this proof, although the columns that its first root stood for when it was asked for do not decode to a table
with a property that the constraints force, is at most `N` times the error of one attempt and `4 N^2 / 2^256`. (Compared to
`C89_attempts`, the prover does not send any words: they are found in its questions.)
Missing: that the rows of the trace are opened rightly and that the proof has the right shape, which the verifier of the code
does not check (`C48_trace_paths_ignored`, `C45_unused_data_accepted`). The prover has itself asked for the hashes with
which its proof is checked and, in order, for the digests. -/
theorem C92_extracted_partial {L : Nat} (keccak : Bytes → Commitment) {toBytes : FE → Bytes}
    (hinj : Function.Injective toBytes) (hlen : ∀ x, (toBytes x).length = 32) {env : Env FE T} {air : Air FE Ch} {a b : Nat}
    (S : Setting air a b) {d : Domain FE} (hd : Domain.new env.ta air = .ok d) {w : FE} (hw : env.ta.root (a + b) = some w)
    (hc : ∀ ch, ∃ cs, PolynomialConstraints air ch cs ∧ cs.length = air.context.numTransitionConstraints) {nb : Nat}
    (hb : ∀ ch boundary, air.boundaryConstraints ch = .ok boundary → boundary.length = nb ∧
      ∀ c ∈ boundary, c.col < air.context.traceColumns ∧ c.step < 2 ^ a)
    {c0 c1 : Nat} (hcols : c0 + c1 = air.context.traceColumns) {roots queries q r : Nat} (hroots : 1 ≤ roots)
    (hroots' : c1 = 0 ∨ 2 ≤ roots) (hq : q ≤ queries)
    {R m : Nat} (hR : DecodingRadius a b R m) {Q : List (List FE) → Prop}
    (hQ : ∀ rows ch, rows.length = 2 ^ a → (∀ r ∈ rows, r.length = air.context.traceColumns) →
      Satisfies air rows air.context.traceColumns ch → Q (rows.map fun r => r.take c0))
    (ask : List (Commitment × Reply air.numRapChallenges nb air.context.numTransitionConstraints
        (air.context.traceColumns * air.context.transitionOffsets.length) q r) →
      Question L (air.context.traceColumns * air.context.transitionOffsets.length) (a + 5)) (N : Nat)
    (out : List (Commitment × Reply air.numRapChallenges nb air.context.numTransitionConstraints
        (air.context.traceColumns * air.context.transitionOffsets.length) q r) → StarkProof FE) :
    probability (Question L (air.context.traceColumns * air.context.transitionOffsets.length) (a + 5) → Commitment ×
        Reply air.numRapChallenges nb air.context.numTransitionConstraints
          (air.context.traceColumns * air.context.transitionOffsets.length) q r)
      (fun O =>
        let p := out (answers O ask N)
        let hashes := keccakHashes (hashOf keccak O) toBytes
        ∃ l time c, InOrder ask (answers O ask N) l time ∧
          ProofShape p a b air.context.traceColumns roots air.context.transitionOffsets.length queries ∧
          Accepts { env with hashes := hashes } air d a b (digestsOf O) p l c ∧
          TraceOpened hashes c0 p c.iotas ∧ HashesAsked keccak toBytes O ask N p c0 (a + b) c.iotas ∧
          ¬ DecodesTo d w air.context.proofOptions.cosetOffset a b R
            ((extracted toBytes a b c0 c1 air.context.traceColumns).main
              (hashed Question.text Prod.fst ask (answers O ask (time 0)), l.first 1)) Q)
      ≤ N * attemptError nb air.context.numTransitionConstraints air.context.traceColumns
          air.context.transitionOffsets.length a b R m q air.context.proofOptions.grindingFactor.toNat
        + (4 * N ^ 2 : ℚ) / 2 ^ 256 := by
  classical
  obtain ⟨g, w', D⟩ := domain_new S.rows S.length S.blowup hd
  have h1 : (2 : ℚ) ^ (a + b) ≤ 2 ^ 64 := pow_le_pow_right₀ (by norm_num) D.small.le
  have h2 : (2 : ℚ) ^ a ≤ 2 ^ 64 := pow_le_pow_right₀ (by norm_num) (by have := D.small; omega)
  have hK0 : (0 : ℚ) < 2 ^ 251 - (2 ^ (a + b) + 2 ^ a) := by
    have : (2 : ℚ) ^ 64 + 2 ^ 64 < 2 ^ 251 := by norm_num
    linarith
  have hR1 : R + 1 ≤ 2 ^ (a + b) := by
    have : 0 < 2 ^ a := by positivity
    have := hR.unique
    omega
  obtain ⟨dflt⟩ := reply_nonempty (e := air.numRapChallenges) (nb := nb) (nt := air.context.numTransitionConstraints)
    (k := air.context.traceColumns * air.context.transitionOffsets.length) (q := q) (r := r)
  letI : Inhabited (Reply air.numRapChallenges nb air.context.numTransitionConstraints
    (air.context.traceColumns * air.context.transitionOffsets.length) q r) := ⟨dflt⟩
  haveI : Nonempty Commitment := Prog.commitment_nonempty
  obtain ⟨K, hK⟩ : ∃ K : ℚ, K = 2 ^ 251 - (2 ^ (a + b) + 2 ^ a) := ⟨_, rfl⟩
  rw [← hK] at hK0
  set err := fun j => roundError nb air.context.numTransitionConstraints
      (air.context.traceColumns * air.context.transitionOffsets.length) a b R m q
      air.context.proofOptions.grindingFactor.toNat K j with herr
  have herr0 : ∀ j, 0 ≤ err j := fun j => roundError_nonneg _ _ _ _ _ _ _ _ _ hK0 hR1 j
  set rd := extracted toBytes a b c0 c1 air.context.traceColumns
      (k := air.context.traceColumns * air.context.transitionOffsets.length) with hrd
  have hmain : ∀ x, (rd.main x).length = c0 := fun x => List.length_ofFn
  have haux : ∀ x, (rd.aux x).length = c1 := fun x => List.length_ofFn
  have h3 := ordered_rounds (ask := ask) (mean := meaning ask) (rep := Prod.snd) (Lost rd air d a b w R m Q)
    (p := ∑ j ∈ Finset.range (a + 5), err j) (Finset.sum_nonneg fun j _ => herr0 j) trivial
    (fun ws rs hlen hlt hlost x => by
      have := lost_step rd S hd hw hc hb (fun m0 m1 => by rw [hmain, haux]; exact hcols) hR
        (fun m0 => by rw [hmain]; exact hQ) (q := q) (r := r) hK hK0 ws rs hlen hlt hlost x
      refine (le_of_eq ?_).trans (this.trans (Finset.single_le_sum (f := err) (fun j _ => herr0 j)
        (Finset.mem_range.2 hlt)))
      exact probability_snd_eq (X := Commitment) fun y => ¬ Lost rd air d a b w R m Q (ws ++ [x]) (rs ++ [y])) N
  have hdig : ∀ l : List Commitment, probability (Commitment × Reply air.numRapChallenges nb
      air.context.numTransitionConstraints (air.context.traceColumns * air.context.transitionOffsets.length) q r)
      (fun x => x.1 ∈ l) ≤ (l.length : ℚ) / 2 ^ 256 := fun l => by
    have := probability_mem l
    rw [card_digests] at this
    rwa [probability_fst_eq (fun x => x ∈ l)]
  have h4 := probability_hits (text := Question.text) (digest := Prod.fst) (ask := ask) (declared := namedBy ask) hdig
    (r := 1) namedBy_length N
  have h5 : ∑ j ∈ Finset.range (a + 5), err j = attemptError nb air.context.numTransitionConstraints
      air.context.traceColumns air.context.transitionOffsets.length a b R m q
      air.context.proofOptions.grindingFactor.toNat := by
    rw [herr, sum_roundError, hK]
    unfold attemptError
    push_cast
    rfl
  rw [h5] at h3
  refine (probability_mono fun O hO => ?_).trans ((probability_or _ _).trans (add_le_add h3 (h4.trans (le_of_eq (by
    push_cast; ring)))))
  obtain ⟨l, time, c, hio, shape, acc, htr, hask, hdec⟩ := hO
  by_cases hno : Hit Question.text Prod.fst ask (namedBy ask) N O
  · exact .inr hno
  · exact .inl ⟨l, time, hio, extracted_not_lost hinj hlen S hd hw hcols hroots hroots' shape hq hno hio acc htr hask hdec⟩

/-- **C92**, the verifier of the code accepts in the sense of the game: if it accepts a proof, then the checks that the game
is about succeed, with the digests that its transcript gives after the messages. -/
theorem C92_code {PI : Type} {env : Env FE T} (hof : ∀ d, randomnessToField 252 d = .ok (env.ofDigest d))
    {new : AirNew FE Ch PI} {pi : PI} {options : ProofOptions} {p : StarkProof FE} {air : Air FE Ch}
    (hair : new p.traceLength pi options = .ok air) {a b : Nat} (S : Setting air a b)
    (h : verify env new p pi options = .ok true) {nb : Nat}
    (hb : ∀ ch boundary, air.boundaryConstraints ch = .ok boundary → boundary.length = nb) {roots queries : Nat}
    (shape : ProofShape p a b air.context.traceColumns roots air.context.transitionOffsets.length queries)
    (hnonce : p.nonce < 2 ^ 64) :
    ∃ d c t r l, Domain.new env.ta air = .ok d ∧ step1 env air p d env.tr.init = .ok (c, t) ∧
      Accepts env air d a b (fun l => replyFor env d.ldeRootsOfUnityCoset d.traceRootsOfUnity air.numRapChallenges nb
        air.context.numTransitionConstraints (air.context.traceColumns * air.context.transitionOffsets.length)
        air.context.proofOptions.friNumberOfQueries r (l.val.map (sentAs env.toBytes))) p l c := by
  obtain ⟨-, air', d, c, t, e1, e2, e3, hwork, h2, h3, h4⟩ := verify_true h
  obtain rfl : air = air' := Outcome.ok.inj (hair.symm.trans e1)
  obtain ⟨g, w, D⟩ := domain_new S.rows S.length S.blowup e2
  have hsent := sentAs_saidBy env.toBytes (k := air.context.traceColumns * air.context.transitionOffsets.length)
    (by rw [shape.frameData, Nat.mul_comm]) hnonce
  have hlen : (saidBy (air.context.traceColumns * air.context.transitionOffsets.length) p).length ≤ a + 5 := by
    rw [saidBy_length, shape.friLayers]
  let l : Told (Said (air.context.traceColumns * air.context.transitionOffsets.length)) (a + 5) := ⟨_, hlen⟩
  let l' : Told Sent (a + 5) := ⟨l.val.map (sentAs env.toBytes), by rw [List.length_map]; exact hlen⟩
  obtain ⟨r, ε, αB, βB, αT, βT, z, γe, γo, γ, ζ, ι, hder, hc, hlz⟩ := C89_transcript hof e3 shape.friLayers
    (by rw [shape.frameData, shape.frameWidth]) (hb _) D.ldeRootOrder D.small l' hsent
  refine ⟨d, c, t, r, l, e2, e3, rfl, (hlz _).1 hwork, ⟨ε, αB, βB, αT, βT, z, γe, γo, γ, ζ, ι, ?_, hc⟩, h2, h3, h4⟩
  refine Eq.trans (congrArg _ ?_) hder
  unfold digestsFor Told.first
  simp only [l', List.map_take]

theorem messagesOf_length {hash : Bytes → Commitment} {B : Nat} (hB : 64 ≤ B) (path : List Commitment) :
    ∀ (m : Bytes) (index : Nat), m.length ≤ B → ∀ x ∈ messagesOf hash m path index, x.length ≤ B := by
  induction path with
  | nil =>
    intro m index hm x hx
    rw [messagesOf, List.mem_singleton] at hx
    rw [hx]
    exact hm
  | cons s path ih =>
    intro m index hm x hx
    rw [messagesOf, List.mem_cons] at hx
    rcases hx with rfl | hx
    · exact hm
    · refine ih _ _ ?_ x hx
      have h1 := (hash m).property
      have h2 := s.property
      split <;> rw [List.length_append] <;> omega

theorem spot_values {p : StarkProof FE} {a b cols trees offsets queries c0 : Nat}
    (shape : ProofShape p a b cols trees offsets queries) {spot : Spot} {path : MerkleProof} {values : List FE}
    (h : spot.opening p c0 = some (path, values)) : values.length ≤ cols + 2 := by
  cases spot with
  | main i =>
    cases ho : p.deepPolyOpenings[i]? with
    | none => simp [Spot.opening, ho] at h
    | some o =>
      have := (shape.opening o (List.mem_of_getElem? ho)).2.2.2
      cases hp : o.ldeTraceMerkleProofs[0]? with
      | none => simp [Spot.opening, ho, hp] at h
      | some path' =>
        simp only [Spot.opening, ho, hp, Option.bind_eq_bind, Option.bind_some, Option.pure_def, Option.some.injEq,
          Prod.mk.injEq] at h
        rw [← h.2, List.length_take]
        omega
  | aux i =>
    cases ho : p.deepPolyOpenings[i]? with
    | none => simp [Spot.opening, ho] at h
    | some o =>
      have := (shape.opening o (List.mem_of_getElem? ho)).2.2.2
      cases hp : o.ldeTraceMerkleProofs[1]? with
      | none => simp [Spot.opening, ho, hp] at h
      | some path' =>
        simp only [Spot.opening, ho, hp, Option.bind_eq_bind, Option.bind_some, Option.pure_def, Option.some.injEq,
          Prod.mk.injEq] at h
        rw [← h.2, List.length_drop]
        omega
  | checked place =>
    have h' : place.opening p = some (path, values) := h
    suffices values.length ≤ 2 by omega
    cases place <;>
    · simp only [Place.opening, Option.bind_eq_bind, Option.bind_eq_some_iff, Option.pure_def, Option.some.injEq,
        Prod.mk.injEq] at h'
      obtain ⟨_, _, h'⟩ := h'
      repeat (first | obtain ⟨rfl, rfl⟩ := h' | obtain ⟨_, _, h'⟩ := h')
      simp

/-- **C92**: what the verifier accepts is a success in the game that `C92_extracted_partial` bounds, for some answers (those
of the hash function and the transcript of the verifier) and a prover that asks for the digests and then for all the hashes.
So the event there is not empty because of what it demands of the prover. -/
theorem C92_attained {PI : Type} {keccak : Bytes → Commitment} {toBytes : FE → Bytes} (hlen : ∀ x, (toBytes x).length = 32)
    {env : Env FE T} (hhash : env.hashes = keccakHashes keccak toBytes)
    (hof : ∀ d, randomnessToField 252 d = .ok (env.ofDigest d))
    {new : AirNew FE Ch PI} {pi : PI} {options : ProofOptions} {p : StarkProof FE} {air : Air FE Ch}
    (hair : new p.traceLength pi options = .ok air) {a b : Nat} (S : Setting air a b)
    (h : verify env new p pi options = .ok true) {nb : Nat}
    (hb : ∀ ch boundary, air.boundaryConstraints ch = .ok boundary → boundary.length = nb) {roots queries : Nat}
    (shape : ProofShape p a b air.context.traceColumns roots air.context.transitionOffsets.length queries)
    (hnonce : p.nonce < 2 ^ 64) {c0 : Nat}
    (hopen : ∀ d c t, Domain.new env.ta air = .ok d → step1 env air p d env.tr.init = .ok (c, t) →
      TraceOpened env.hashes c0 p c.iotas) :
    ∃ (d : Domain FE) (L r N : Nat)
      (O : Question L (air.context.traceColumns * air.context.transitionOffsets.length) (a + 5) → Commitment ×
        Reply air.numRapChallenges nb air.context.numTransitionConstraints
          (air.context.traceColumns * air.context.transitionOffsets.length) air.context.proofOptions.friNumberOfQueries r)
      (ask : List (Commitment × Reply air.numRapChallenges nb air.context.numTransitionConstraints
          (air.context.traceColumns * air.context.transitionOffsets.length) air.context.proofOptions.friNumberOfQueries r) →
        Question L (air.context.traceColumns * air.context.transitionOffsets.length) (a + 5)),
      Domain.new env.ta air = .ok d ∧
      ∃ l time c, InOrder ask (answers O ask N) l time ∧
        Accepts { env with hashes := keccakHashes (hashOf keccak O) toBytes } air d a b (digestsOf O) p l c ∧
        TraceOpened (keccakHashes (hashOf keccak O) toBytes) c0 p c.iotas ∧
        HashesAsked keccak toBytes O ask N p c0 (a + b) c.iotas := by
  obtain ⟨d, c, t, r, l, hd, hs, hacc⟩ := C92_code hof hair S h hb shape hnonce
  let L := 32 * (air.context.traceColumns + 2)
  let H := fun l : Told (Said (air.context.traceColumns * air.context.transitionOffsets.length)) (a + 5) =>
    replyFor env d.ldeRootsOfUnityCoset d.traceRootsOfUnity air.numRapChallenges nb
        air.context.numTransitionConstraints (air.context.traceColumns * air.context.transitionOffsets.length)
        air.context.proofOptions.friNumberOfQueries r (l.val.map (sentAs env.toBytes))
  let O : Question L (air.context.traceColumns * air.context.transitionOffsets.length) (a + 5) → Commitment ×
      Reply air.numRapChallenges nb air.context.numTransitionConstraints
        (air.context.traceColumns * air.context.transitionOffsets.length) air.context.proofOptions.friNumberOfQueries r :=
    fun x => match x with
      | .inl m => (keccak m.val, H l)
      | .inr y => (keccak [], H y)
  have hO : hashOf keccak O = keccak := by
    funext m
    unfold hashOf drawnHash
    split <;> rfl
  let e := Fintype.equivFin (Message L)
  let empty : Message L := ⟨[], Nat.zero_le _⟩
  let ask : List (Commitment × Reply air.numRapChallenges nb air.context.numTransitionConstraints
          (air.context.traceColumns * air.context.transitionOffsets.length) air.context.proofOptions.friNumberOfQueries r) →
        Question L (air.context.traceColumns * air.context.transitionOffsets.length) (a + 5) :=
    fun got => if got.length < l.val.length then .inr (l.first (got.length + 1)) else
      if h : got.length - l.val.length < Fintype.card (Message L) then .inl (e.symm ⟨_, h⟩) else .inl empty
  have hask : ∀ j < l.val.length, ask (answers O ask j) = .inr (l.first (j + 1)) := by
    intro j hj
    simp only [ask, answers_length, if_pos hj]
  have htake : ∀ i < l.val.length, (answers O ask (l.val.length + Fintype.card (Message L))).take i = answers O ask i := by
    intro i hi
    obtain ⟨k, hk⟩ := Nat.exists_eq_add_of_le (show i ≤ l.val.length + Fintype.card (Message L) by omega)
    rw [hk, answers_take]
  refine ⟨d, L, r, l.val.length + Fintype.card (Message L), O, ask, hd, l, id, c, ⟨fun j hj => ?_, fun j hj i hi => ?_,
    fun j _ => Nat.lt_succ_self j⟩, ?_, ?_, ?_⟩
  · rw [answers_length, id, htake j hj]
    exact ⟨by omega, hask j hj⟩
  · have hij : i < j := hi
    rw [htake i (by omega), hask i (by omega)]
    intro heq
    have := congrArg (fun y => y.val.length) (Sum.inr.inj heq)
    simp only [Told.first, List.length_take] at this
    omega
  · rw [hO, ← hhash]
    exact hacc
  · rw [hO, ← hhash]
    exact hopen d c t hd hs
  · intro spot iota path values _ hspot m hm
    rw [hO] at hm
    have hml : m.length ≤ L := by
      refine messagesOf_length (by simp only [L]; omega) _ _ _ ?_ m hm
      have := spot_values shape hspot
      rw [List.length_flatMap, List.map_congr_left (g := fun _ => 32) (fun x _ => hlen x)]
      simp only [List.map_const', List.sum_replicate, smul_eq_mul, L]
      omega
    refine ⟨l.val.length + (e ⟨m, hml⟩).val, by omega, ?_⟩
    simp only [ask, answers_length]
    rw [if_neg (by omega), dif_pos (by rw [Nat.add_sub_cancel_left]; exact (e ⟨m, hml⟩).isLt)]
    simp only [Nat.add_sub_cancel_left, Fin.eta, Equiv.symm_apply_apply]
    rfl

section cairo
open CairoAir ProofOptions

/-- **C92**, the Cairo AIR: the main columns are the first ones, the auxiliary ones the last 18.
Missing: as for `C92_extracted_partial`. -/
theorem C92_cairo_partial {L : Nat} (keccak : Bytes → Commitment) {env : Env FE T} {opts : ProofOptions} {a b : Nat}
    {d : Domain FE} {w : FE} {R m : Nat} (ha : 1 ≤ a) (hb : 1 ≤ b) {pi : PublicInputs} (hsteps : pi.numSteps ≤ 2 ^ a)
    (hblow : opts.blowupFactor.toNat = 2 ^ b) (hoff : (opts.cosetOffset : FE) ≠ 0)
    (hd : Domain.new env.ta (CairoAir.air (2 ^ a) pi opts) = .ok d) (hw : env.ta.root (a + b) = some w)
    (hR : DecodingRadius a b R m) {q r : Nat}
    (ask : List (Commitment × Reply 3 8 (numTransitionConstraints (hasRcBuiltin pi)) (traceColumns (hasRcBuiltin pi) * 2)
      q r) → Question L (traceColumns (hasRcBuiltin pi) * 2) (a + 5)) (N : Nat)
    (out : List (Commitment × Reply 3 8 (numTransitionConstraints (hasRcBuiltin pi)) (traceColumns (hasRcBuiltin pi) * 2)
      q r) → StarkProof FE) :
    probability (Question L (traceColumns (hasRcBuiltin pi) * 2) (a + 5) → Commitment ×
        Reply 3 8 (numTransitionConstraints (hasRcBuiltin pi)) (traceColumns (hasRcBuiltin pi) * 2) q r)
      (fun O =>
        let p := out (answers O ask N)
        let hashes := keccakHashes (hashOf keccak O) feToBytesBe
        let c0 := traceColumns (hasRcBuiltin pi) - 18
        ∃ l time c, InOrder ask (answers O ask N) l time ∧ ProofShape p a b (traceColumns (hasRcBuiltin pi)) 2 2 q ∧
          Accepts { env with hashes := hashes } (CairoAir.air (2 ^ a) pi opts) d a b (digestsOf O) p l c ∧
          TraceOpened hashes c0 p c.iotas ∧ HashesAsked keccak feToBytesBe O ask N p c0 (a + b) c.iotas ∧
          ¬ DecodesTo d w opts.cosetOffset a b R
            ((extracted feToBytesBe a b c0 18 (traceColumns (hasRcBuiltin pi))).main
              (hashed Question.text Prod.fst ask (answers O ask (time 0)), l.first 1)) (SelectedRun pi))
      ≤ N * attemptError 8 (numTransitionConstraints (hasRcBuiltin pi)) (traceColumns (hasRcBuiltin pi)) 2 a b R m q
          opts.grindingFactor.toNat + (4 * N ^ 2 : ℚ) / 2 ^ 256 := by
  have h2 : 2 ^ 1 ≤ 2 ^ a := Nat.pow_le_pow_right (by norm_num) ha
  have hcols : 52 ≤ traceColumns (hasRcBuiltin pi) := by cases hasRcBuiltin pi <;> simp [traceColumns]
  exact C92_extracted_partial keccak feToBytesBe_injective length_feToBytesBe (air := CairoAir.air (2 ^ a) pi opts)
    ⟨ha, hb, rfl, hblow, hoff, air_fits (by omega) pi opts⟩ hd hw (cairo_polynomials (by omega) pi opts) (nb := 8)
    (cairo_boundary ha hsteps opts) (c0 := traceColumns (hasRcBuiltin pi) - 18) (c1 := 18)
    (Nat.sub_add_cancel (by omega)) (roots := 2) (queries := q) (by norm_num) (.inr le_rfl) le_rfl hR (Q := SelectedRun pi)
    (fun rows ch hl hrect hsat => cairo_selected ha hsteps hl hrect hsat) ask N out

/-- **C92**, the levels of `new_secure`: what the bound gives for them, for `2^7` to `2^40` rows and columns decoded up to the
part `189 / 512` of the points.
Missing: as for `C92_extracted_partial`. -/
theorem C92_cairo_levels_partial {L : Nat} (keccak : Bytes → Commitment) {env : Env FE T} {level : SecurityLevel}
    {bits off : Nat} (hl : (level, bits) ∈ [(SecurityLevel.conjecturable80Bits, 40), (.conjecturable100Bits, 47),
      (.conjecturable128Bits, 56), (.provable80Bits, 73), (.provable100Bits, 89), (.provable128Bits, 113)])
    {a : Nat} {d : Domain FE} {w : FE} (ha : 7 ≤ a) (ha' : a ≤ 40) {pi : PublicInputs} (hsteps : pi.numSteps ≤ 2 ^ a)
    (hoff : (off : FE) ≠ 0) (hd : Domain.new env.ta (CairoAir.air (2 ^ a) pi (newSecure level off)) = .ok d)
    (hw : env.ta.root (a + 2) = some w) {r : Nat}
    (ask : List (Commitment × Reply 3 8 (numTransitionConstraints (hasRcBuiltin pi)) (traceColumns (hasRcBuiltin pi) * 2)
      (newSecure level off).friNumberOfQueries r) → Question L (traceColumns (hasRcBuiltin pi) * 2) (a + 5)) (N : Nat)
    (out : List (Commitment × Reply 3 8 (numTransitionConstraints (hasRcBuiltin pi)) (traceColumns (hasRcBuiltin pi) * 2)
      (newSecure level off).friNumberOfQueries r) → StarkProof FE) :
    probability (Question L (traceColumns (hasRcBuiltin pi) * 2) (a + 5) → Commitment ×
        Reply 3 8 (numTransitionConstraints (hasRcBuiltin pi)) (traceColumns (hasRcBuiltin pi) * 2)
          (newSecure level off).friNumberOfQueries r)
      (fun O =>
        let p := out (answers O ask N)
        let hashes := keccakHashes (hashOf keccak O) feToBytesBe
        let c0 := traceColumns (hasRcBuiltin pi) - 18
        ∃ l time c, InOrder ask (answers O ask N) l time ∧
          ProofShape p a 2 (traceColumns (hasRcBuiltin pi)) 2 2 (newSecure level off).friNumberOfQueries ∧
          Accepts { env with hashes := hashes } (CairoAir.air (2 ^ a) pi (newSecure level off)) d a 2 (digestsOf O) p l c ∧
          TraceOpened hashes c0 p c.iotas ∧ HashesAsked keccak feToBytesBe O ask N p c0 (a + 2) c.iotas ∧
          ¬ DecodesTo d w off a 2 (189 * 2 ^ (a - 7) - 1)
            ((extracted feToBytesBe a 2 c0 18 (traceColumns (hasRcBuiltin pi))).main
              (hashed Question.text Prod.fst ask (answers O ask (time 0)), l.first 1)) (SelectedRun pi))
      ≤ N / 2 ^ bits + (4 * N ^ 2 : ℚ) / 2 ^ 256 := by
  obtain ⟨c, rfl⟩ : ∃ c, a = c + 7 := ⟨a - 7, by omega⟩
  rw [Nat.add_sub_cancel]
  have hblow : (newSecure level off).blowupFactor.toNat = 2 ^ 2 := by cases level <;> rfl
  have hgrind : (newSecure level off).grindingFactor.toNat = 20 := by cases level <;> rfl
  have hcos : (newSecure level off).cosetOffset = off := by cases level <;> rfl
  have h := C92_cairo_partial keccak (env := env) (by omega) (b := 2) (by norm_num) hsteps hblow (by rw [hcos]; exact hoff)
    hd hw (radius_cube c) ask N out
  rw [hgrind, hcos] at h
  refine h.trans (add_le_add_left ?_ _)
  rw [div_eq_mul_one_div]
  exact mul_le_mul_of_nonneg_left (attemptError_levels off hl ha' pi) (Nat.cast_nonneg N)

end cairo

/-- The hypotheses of `C92_cairo_levels_partial` are met by the claim of the example run with 128 rows. -/
example : ∃ (d : Domain FE) (w : FE), starkRoots.root (7 + 2) = some w ∧
    Domain.new starkRoots (CairoAir.air (2 ^ 7) Examples.main0.2 (ProofOptions.newSecure .provable80Bits 3)) = .ok d ∧
    Examples.main0.2.numSteps ≤ 2 ^ 7 ∧ ((3 : Nat) : FE) ≠ 0 := by
  obtain ⟨w, hw⟩ := Option.isSome_iff_exists.mp (starkRoots.defined (7 + 2) (by norm_num) (by decide))
  obtain ⟨d, hd⟩ := domain_exists (ta := starkRoots)
    (air := CairoAir.air (2 ^ 7) Examples.main0.2 (ProofOptions.newSecure .provable80Bits 3)) (a := 7) (b := 2)
    (by norm_num) rfl rfl (by norm_num) (by decide)
  exact ⟨d, w, hw, hd, by decide +kernel, by decide +kernel⟩

section examples
open Verif.Examples Verif.ExampleAirs TraceTable

/-- Trees with the Keccak backends, with a toy hash in place of Keccak. -/
def envToy : Env FE UInt8 := { envDrawn with hashes := keccakHashes toyHash feToBytesBe }

/-- The hypotheses of `C92_attained`, and with them those of `C92_code`, are met by the honest proof for two squares. -/
example : ∃ proof : StarkProof FE, quadratic proof.traceLength 2 (options17 3) = .ok airDrawn ∧ Setting airDrawn 1 1 ∧
    verify envToy quadratic proof 2 (options17 3) = .ok true ∧
    (∀ ch boundary, airDrawn.boundaryConstraints ch = .ok boundary → boundary.length = 1) ∧
    ProofShape proof 1 1 airDrawn.context.traceColumns 1 airDrawn.context.transitionOffsets.length
      airDrawn.context.proofOptions.friNumberOfQueries ∧ proof.nonce < 2 ^ 64 ∧
    (∀ d c t, Domain.new envToy.ta airDrawn = .ok d → step1 envToy airDrawn proof d envToy.tr.init = .ok (c, t) →
      TraceOpened envToy.hashes 1 proof c.iotas) := by
  have hsat : ∀ ch : Unit, SatisfiesExtended airDrawn [[2], [4]] 1 ch emptyTable :=
    fun ch => .inl ⟨rfl, rfl, drawn_satisfy⟩
  have hext : ∀ (ch : Unit) (aux : TraceTable FE) (bcs : List (BoundaryConstraint FE)),
      airDrawn.buildAuxiliaryTrace (ofRows [[2], [4]] 1) ch = .ok aux → airDrawn.boundaryConstraints ch = .ok bcs →
      SatisfiesExtended airDrawn [[2], [4]] 1 ch aux := by
    intro ch aux bcs h1 _
    obtain rfl := Outcome.ok.inj h1
    exact hsat _
  obtain ⟨proof, hp⟩ := C44_prover_succeeds (env := envToy) settingDrawn (by norm_num) (by decide)
    airDrawn_eq (by decide +kernel) (rows := [[2], [4]]) (k := 1) (by norm_num) rfl (by decide)
    (fun ch => ⟨_, quadratic_polynomial _ _ _ airDrawn_eq ch⟩) (fun _ _ => ⟨_, _, rfl, rfl, hsat _⟩)
    (samplingEnds_of settingDrawn fun lde trace t h1 h2 => drawn_sampleZOod lde trace t (by rw [h1, h2]; norm_num))
    (fun c => generateNonce_zero _ c)
  have hv := C44_honest_proofs_verify settingDrawn (by
      rw [show ((airDrawn.context.proofOptions.cosetOffset : Nat) : FE) = 3 from rfl]
      exact three_not_square) (by decide) airDrawn_eq rfl (by norm_num) rfl
    (by decide) (fun ch => ⟨_, quadratic_polynomial _ _ _ airDrawn_eq ch⟩) (fun _ _ aux bcs => hext _ aux bcs) hp
  obtain ⟨d, c, t, r1, r2, deep, layers, ps, hd, hs, U⟩ :=
    C49_same_challenges (env := envToy) (trace := TraceTable.ofRows [[2], [4]] 1) (a := 1) (b := 1)
      (air := airDrawn) rfl (by norm_num) rfl rfl hp
  obtain ⟨g, w, D⟩ := domain_new settingDrawn.rows settingDrawn.length settingDrawn.blowup hd
  obtain ⟨aux, haux, hshape⟩ := shape_run D settingDrawn.length settingDrawn.blowup settingDrawn.extended
    settingDrawn.offset settingDrawn.fits (by norm_num) (rows := [[2], [4]]) rfl (by decide) hs U
    (quadratic_polynomial _ _ _ airDrawn_eq _) (hext _)
  obtain rfl := Outcome.ok.inj haux
  obtain ⟨d', c', t', hd', hs', hopen⟩ := C93_as_assumed (env := envToy) (air := airDrawn) (a := 1) (b := 1) le_rfl rfl rfl
    airDrawn_eq (rows := [[2], [4]]) (k := 1) (by norm_num) rfl (by decide) (by
      intro ch aux h1 h2
      obtain rfl := Outcome.ok.inj h1
      exact absurd h2 (by decide)) hp
  refine ⟨proof, by rw [U.traceLength]; exact airDrawn_eq, settingDrawn, hv, ?_, hshape, ?_, ?_⟩
  · intro ch boundary h
    obtain rfl := Outcome.ok.inj h
    rfl
  · obtain ⟨challenge, hn, -⟩ := U.nonce
    have := ((C52_smallest_nonce_partial _ _ _ _).mp hn).1
    omega
  · intro d2 c2 t2 hd2 hs2
    obtain rfl : d' = d2 := Outcome.ok.inj (hd'.symm.trans hd2)
    obtain ⟨rfl, rfl⟩ : c' = c2 ∧ t' = t2 := by simpa using Outcome.ok.inj (hs'.symm.trans hs2)
    exact hopen

end examples

end Verif.Props
