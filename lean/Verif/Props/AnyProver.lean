import Verif.Lemmas.Thorough
import Verif.Props.Extracted
import Verif.Props.Verifier

/-!
# C92 for provers that ask what they like
-/

namespace Verif.Props
open Verif.Spec Verif.Proximity Random

variable {T Ch : Type}

/-- The openings that answer a query. -/
def spotsOf (a i : Nat) : List Spot :=
  [.main i, .aux i, .checked (.composition i)]
    ++ (List.range a).flatMap fun j => [.checked (.layer i j), .checked (.opposite i j)]

/-- The messages that are hashed on the paths of a proof. -/
def checkList (toBytes : FE → Bytes) (p : StarkProof FE) (c0 height a : Nat) (iotas : List Nat) (K : Bytes → Commitment) :
    List Bytes :=
  (List.range iotas.length).flatMap fun i => (spotsOf a i).flatMap fun spot =>
    match spot.opening p c0 with
    | some (path, values) => messagesOf K (values.flatMap toBytes) path.merklePath (spot.index height (iotas.getD i 0))
    | none => []

theorem checkList_stepwise (toBytes : FE → Bytes) (p : StarkProof FE) (c0 height a : Nat) (iotas : List Nat) :
    Stepwise (checkList toBytes p c0 height a iotas) := by
  refine stepwise_flatMap _ fun i _ => stepwise_flatMap _ fun spot _ => ?_
  cases spot.opening p c0 with
  | none => exact stepwise_const []
  | some x => exact stepwise_messagesOf _ _ _

theorem length_flatMap_le {α β : Type} (l : List α) (f : α → List β) (c : Nat) (h : ∀ x ∈ l, (f x).length ≤ c) :
    (l.flatMap f).length ≤ l.length * c := by
  induction l with
  | nil => simp
  | cons x l ih =>
    rw [List.flatMap_cons, List.length_append, List.length_cons, Nat.succ_mul]
    have h1 := h x (by simp)
    have h2 := ih fun y hy => h y (by simp [hy])
    omega

theorem length_messagesOf (K : Bytes → Commitment) (path : List Commitment) (m : Bytes) (i : Nat) :
    (messagesOf K m path i).length = path.length + 1 := by
  induction path generalizing m i with
  | nil => rfl
  | cons s path ih => rw [messagesOf, List.length_cons, ih, List.length_cons]

section shape
variable {p : StarkProof FE} {a b cols trees offsets queries c0 : Nat}
  (shape : ProofShape p a b cols trees offsets queries) {spot : Spot} {path : MerkleProof} {values : List FE}
  (h : spot.opening p c0 = some (path, values))
include shape h

theorem spot_path : path.merklePath.length ≤ a + b := by
  have hlayers : ∀ {paths : List MerkleProof} {j : Nat}, paths[j]? = some path →
      paths.map (·.merklePath.length) = (List.range a).map (fun k => a + b - k) → path.merklePath.length ≤ a + b := by
    intro paths j hj hp
    have h1 : path.merklePath.length ∈ paths.map (·.merklePath.length) :=
      List.mem_map.mpr ⟨path, List.mem_of_getElem? hj, rfl⟩
    rw [hp] at h1
    obtain ⟨k, -, hk⟩ := List.mem_map.mp h1
    omega
  cases spot with
  | main i =>
    simp only [Spot.opening, Option.bind_eq_bind, Option.bind_eq_some_iff, Option.pure_def, Option.some.injEq,
      Prod.mk.injEq] at h
    obtain ⟨o, ho, path', hp, rfl, -⟩ := h
    exact ((shape.opening o (List.mem_of_getElem? ho)).2.2.1 _ (List.mem_of_getElem? hp)).le
  | aux i =>
    simp only [Spot.opening, Option.bind_eq_bind, Option.bind_eq_some_iff, Option.pure_def, Option.some.injEq,
      Prod.mk.injEq] at h
    obtain ⟨o, ho, path', hp, rfl, -⟩ := h
    exact ((shape.opening o (List.mem_of_getElem? ho)).2.2.1 _ (List.mem_of_getElem? hp)).le
  | checked place =>
    cases place <;> simp only [Spot.opening, Place.opening, Option.bind_eq_bind, Option.bind_eq_some_iff, Option.pure_def,
      Option.some.injEq, Prod.mk.injEq] at h
    · obtain ⟨o, ho, rfl, -⟩ := h
      exact (shape.opening o (List.mem_of_getElem? ho)).1.le
    · obtain ⟨q, hq, path', hp, _, _, _, _, _, _, rfl, -⟩ := h
      exact hlayers hp (shape.query q (List.mem_of_getElem? hq)).2.2.1
    · obtain ⟨q, hq, _, _, _, _, path', hp, _, _, rfl, -⟩ := h
      exact hlayers hp (shape.query q (List.mem_of_getElem? hq)).2.2.2

theorem spot_mem : spot ∈ spotsOf a spot.query := by
  have hlen : ∀ {α : Type} {l : List α} {j : Nat} {x : α}, l[j]? = some x → l.length = a → j < a := by
    intro α l j x h1 h2
    rw [← h2]
    exact (List.getElem?_eq_some_iff.mp h1).1
  cases spot with
  | main i => simp [spotsOf, Spot.query]
  | aux i => simp [spotsOf, Spot.query]
  | checked place =>
    cases place <;> simp only [Spot.opening, Place.opening, Option.bind_eq_bind, Option.bind_eq_some_iff, Option.pure_def,
      Option.some.injEq, Prod.mk.injEq] at h
    · simp [spotsOf, Spot.query, Place.query]
    · obtain ⟨q, hq, path', _, _, hv, _, _, _, _, rfl, -⟩ := h
      have := hlen hv (shape.query q (List.mem_of_getElem? hq)).1
      simp [spotsOf, Spot.query, Place.query, this]
    · obtain ⟨q, hq, _, _, _, hv, path', hp, _, _, rfl, -⟩ := h
      have := hlen hv (shape.query q (List.mem_of_getElem? hq)).1
      simp [spotsOf, Spot.query, Place.query, this]

end shape

theorem checkList_length {toBytes : FE → Bytes} {p : StarkProof FE} {a b cols trees offsets queries c0 height : Nat}
    (shape : ProofShape p a b cols trees offsets queries) (iotas : List Nat) (K : Bytes → Commitment) :
    (checkList toBytes p c0 height a iotas K).length ≤ iotas.length * ((2 * a + 3) * (a + b + 1)) := by
  have hs : ∀ i, (spotsOf a i).length = 2 * a + 3 := by
    intro i
    simp [spotsOf]
    omega
  refine (length_flatMap_le _ _ ((2 * a + 3) * (a + b + 1)) fun i _ => ?_).trans (by rw [List.length_range])
  rw [← hs i]
  refine length_flatMap_le _ _ _ fun spot _ => ?_
  cases h : spot.opening p c0 with
  | none => exact Nat.zero_le _
  | some x =>
    rw [length_messagesOf]
    exact Nat.succ_le_succ (spot_path shape h)

theorem checkList_short {toBytes : FE → Bytes} (hlen : ∀ x, (toBytes x).length = 32) {p : StarkProof FE}
    {a b cols trees offsets queries c0 height : Nat} (shape : ProofShape p a b cols trees offsets queries)
    (iotas : List Nat) (K : Bytes → Commitment) {L : Nat} (hL : 32 * (cols + 2) ≤ L) :
    ∀ m ∈ checkList toBytes p c0 height a iotas K, m.length ≤ L := by
  intro m hm
  obtain ⟨i, -, hm⟩ := List.mem_flatMap.mp hm
  obtain ⟨spot, -, hm⟩ := List.mem_flatMap.mp hm
  cases h : spot.opening p c0 with
  | none =>
    rw [h] at hm
    simp at hm
  | some x =>
    rw [h] at hm
    refine messagesOf_length (by omega) _ _ _ ?_ m hm
    have := spot_values shape h
    rw [List.length_flatMap, List.map_congr_left (g := fun _ => 32) (fun x _ => hlen x)]
    simp only [List.map_const', List.sum_replicate, smul_eq_mul]
    omega

/-- The positions in a reply. -/
def positionsIn {e nb nt k q r : Nat} (height : Nat) (x : Reply e nb nt k q r) : List Nat :=
  List.ofFn fun i => (positionOf height (x.ι i)).val

/-- **C92** without conditions on what the prover asks: a prover that asks `N` questions, each chosen from the answers so
far, and then puts out a proof. If the proof is accepted, has the expected shape and opens the rows of the trace rightly, then
the columns behind its first root, read off what had been hashed when messages that begin with that root were first asked
about, decode to a trace as demanded, except with the probability bounded. Questions with at most `L` bytes, among them all
leaves of the trees, get random answers.
Missing: the verifier of the code does not check the openings of the trace nor the shape; the hashes and the digests are
drawn independently. -/
theorem C92_any_prover_partial {L : Nat} (keccak : Bytes → Commitment) {toBytes : FE → Bytes}
    (hinj : Function.Injective toBytes) (hlen : ∀ x, (toBytes x).length = 32) {env : Env FE T} {air : Air FE Ch} {a b : Nat}
    (S : Setting air a b) {d : Domain FE} (hd : Domain.new env.ta air = .ok d) {w : FE} (hw : env.ta.root (a + b) = some w)
    (hc : ∀ ch, ∃ cs, PolynomialConstraints air ch cs ∧ cs.length = air.context.numTransitionConstraints) {nb : Nat}
    (hb : ∀ ch boundary, air.boundaryConstraints ch = .ok boundary → boundary.length = nb ∧
      ∀ c ∈ boundary, c.col < air.context.traceColumns ∧ c.step < 2 ^ a)
    {c0 c1 : Nat} (hcols : c0 + c1 = air.context.traceColumns) {roots queries q r : Nat} (hroots : 1 ≤ roots)
    (hroots' : c1 = 0 ∨ 2 ≤ roots) (hq : q ≤ queries) (hL : 32 * (air.context.traceColumns + 2) ≤ L)
    {R m : Nat} (hR : DecodingRadius a b R m) {Q : List (List FE) → Prop}
    (hQ : ∀ rows ch, rows.length = 2 ^ a → (∀ r ∈ rows, r.length = air.context.traceColumns) →
      Satisfies air rows air.context.traceColumns ch → Q (rows.map fun r => r.take c0))
    (ask : List (Commitment × Reply air.numRapChallenges nb air.context.numTransitionConstraints
        (air.context.traceColumns * air.context.transitionOffsets.length) q r) →
      Question L (air.context.traceColumns * air.context.transitionOffsets.length) (a + 5)) (N : Nat)
    (out : List (Commitment × Reply air.numRapChallenges nb air.context.numTransitionConstraints
        (air.context.traceColumns * air.context.transitionOffsets.length) q r) → StarkProof FE) :
    probability (Question L (air.context.traceColumns * air.context.transitionOffsets.length) (a + 5) → Commitment ×
        Reply air.numRapChallenges nb air.context.numTransitionConstraints
          (air.context.traceColumns * air.context.transitionOffsets.length) q r)
      (fun O =>
        let p := out (answers O ask N)
        let hashes := keccakHashes (hashOf keccak O) toBytes
        ∃ l t c, FirstNamed O ask N l t ∧
          ProofShape p a b air.context.traceColumns roots air.context.transitionOffsets.length queries ∧
          Accepts { env with hashes := hashes } air d a b (digestsOf O) p l c ∧ TraceOpened hashes c0 p c.iotas ∧
          ¬ DecodesTo d w air.context.proofOptions.cosetOffset a b R
            ((extracted toBytes a b c0 c1 air.context.traceColumns).main
              (hashed Question.text Prod.fst ask (answers O ask t), l.first 1)) Q)
      ≤ questionsAsked a b q N * attemptError nb air.context.numTransitionConstraints air.context.traceColumns
          air.context.transitionOffsets.length a b R m q air.context.proofOptions.grindingFactor.toNat
        + (4 * questionsAsked a b q N ^ 2 : ℚ) / 2 ^ 256 := by
  have zero : Commitment := ⟨List.replicate 32 0, List.length_replicate⟩
  have hn : 0 < a + 5 := by omega
  let last := fun got => (⟨(saidBy (air.context.traceColumns * air.context.transitionOffsets.length) (out got)).take (a + 5),
    List.length_take_le _ _⟩ : Told (Said (air.context.traceColumns * air.context.transitionOffsets.length)) (a + 5))
  let proofOf := fun got : List (Commitment × Reply air.numRapChallenges nb air.context.numTransitionConstraints
        (air.context.traceColumns * air.context.transitionOffsets.length) q r) =>
    out ((blockEnds (a + 5) (got.take ((N + 1) * (a + 5)))).take N)
  let need := fun got : List (Commitment × Reply air.numRapChallenges nb air.context.numTransitionConstraints
        (air.context.traceColumns * air.context.transitionOffsets.length) q r) =>
    checkList toBytes (proofOf got) c0 (a + b) a ((got.getLast?.map fun x => positionsIn (a + b) x.2).getD [])
  refine (probability_mono ?_).trans (C92_extracted_partial keccak hinj hlen S hd hw hc hb hcols hroots hroots' hq hR hQ
    (thorough N ask last zero need) (questionsAsked a b q N) proofOf)
  rintro O ⟨l, t, c, hnamed, hshape, hacc, hopen, hdec⟩
  have hM : (N + 1) * (a + 5) ≤ questionsAsked a b q N := Nat.le_add_right _ _
  have hp : proofOf (answers O (thorough N ask last zero need) (questionsAsked a b q N)) = out (answers O ask N) :=
    congrArg out (thorough_ends O N ask last zero need hn hM)
  have hp' : proofOf (answers O (thorough N ask last zero need) ((N + 1) * (a + 5))) = out (answers O ask N) :=
    congrArg out (thorough_ends O N ask last zero need hn le_rfl)
  have hll : l.val.length = a + 5 := by rw [hacc.said, saidBy_length, hshape.friLayers]
  have hlast : last (answers O ask N) = l := by
    refine Subtype.ext ?_
    show (saidBy _ (out (answers O ask N))).take (a + 5) = l.val
    rw [← hacc.said, List.take_of_length_le hll.le]
  obtain ⟨time, hord, htime⟩ := thorough_inOrder O N ask last zero need hn hll hlast hnamed hM
  refine ⟨l, time, c, hord, ?_, ?_, ?_, ?_, ?_⟩
  · rw [hp]; exact hshape
  · rw [hp]; exact hacc
  · rw [hp]; exact hopen
  · rw [hp]
    have hiotas : c.iotas = positionsIn (a + b) (O (.inr l)).2 := by
      obtain ⟨ε, αB, βB, αT, βT, z, γe, γo, γ, ζ, ι, h1, h2⟩ := hacc.drawn
      have h3 : ι = positionOf (a + b) ∘ (O (.inr l)).2.ι := by
        simp only [derived, digestsFor, Option.map_eq_some_iff, Prod.mk.injEq] at h1
        obtain ⟨_, _, h1⟩ := h1
        rw [← h1.2.2.2.2.2.2.2.2.2.2, first_all l hll.le]
        rfl
      rw [h2, h3]
      rfl
    have hneed : need (answers O (thorough N ask last zero need) ((N + 1) * (a + 5)))
        = checkList toBytes (out (answers O ask N)) c0 (a + b) a c.iotas := by
      have hlastq : (answers O (thorough N ask last zero need) ((N + 1) * (a + 5))).getLast? = some (O (.inr l)) := by
        rw [List.getLast?_eq_getElem?, answers_length]
        have h1 : (N + 1) * (a + 5) - 1 = N * (a + 5) + (a + 4) := by rw [Nat.succ_mul]; omega
        rw [answers_getElem O _ (by omega), h1, thorough_question O N ask last zero need hn le_rfl (by omega), closing_end,
          hlast, show a + 4 = a + 5 - 1 by omega, spreadQuestion_last hn]
      show checkList toBytes (proofOf _) c0 (a + b) a _ = _
      rw [hp', hlastq, hiotas]
      rfl
    intro spot iota path values hi hspot m hm
    have hmem : m ∈ checkList toBytes (out (answers O ask N)) c0 (a + b) a c.iotas (hashOf keccak O) := by
      refine List.mem_flatMap.mpr ⟨spot.query, List.mem_range.mpr (List.getElem?_eq_some_iff.mp hi).1,
        List.mem_flatMap.mpr ⟨spot, spot_mem hshape hspot, ?_⟩⟩
      rw [hspot, List.getD_eq_getElem?_getD, hi]
      exact hm
    obtain ⟨v, hv, rfl⟩ := List.getElem_of_mem hmem
    have hcount := checkList_length (toBytes := toBytes) (c0 := c0) (height := a + b) hshape c.iotas (hashOf keccak O)
    have hq' : c.iotas.length = q := by rw [hiotas]; exact List.length_ofFn
    rw [hq'] at hcount
    refine ⟨(N + 1) * (a + 5) + v, by unfold questionsAsked; omega, ?_⟩
    have := thorough_needed O N ask last zero need keccak (by rw [hneed]; exact checkList_stepwise _ _ _ _ _ _)
      (by rw [hneed]; exact checkList_short hlen hshape _ _ hL) (v := v) (by rw [hneed]; exact hv)
    rw [this]
    simp only [hneed]
  · rw [htime, thorough_hashed O N ask last zero need hn hnamed.le]
    exact hdec

/-- There always is a time as in `C92_any_prover_partial`, and only one. -/
theorem C92_first_named {L k n : Nat} {R : Type} (O : Question L k n → Commitment × R)
    (ask : List (Commitment × R) → Question L k n) (N : Nat) (l : Told (Said k) n) : ∃! t, FirstNamed O ask N l t := by
  classical
  have hex : ∃ t, t = N ∨ ∃ y, ask (answers O ask t) = .inr y ∧ y.first 1 = l.first 1 := ⟨N, .inl rfl⟩
  refine ⟨Nat.find hex, ⟨Nat.find_min' hex (.inl rfl), fun i hi y h1 h2 => Nat.find_min hex hi (.inr ⟨y, h1, h2⟩),
    Nat.find_spec hex⟩, fun t ht => le_antisymm (Nat.le_of_not_lt fun hlt => ?_) (Nat.find_min' hex ht.named)⟩
  rcases Nat.find_spec hex with h | ⟨y, h1, h2⟩
  · have := ht.le
    omega
  · exact ht.before _ hlt y h1 h2

/-- **C92**: false claims. If no trace satisfies the AIR, whatever the challenges of the auxiliary trace are, then the
probability that a prover with `N` questions puts out a proof of the expected shape that is accepted and opens the rows of the
trace rightly is at most the bound.
Missing: as for `C92_any_prover_partial`; without the two conditions on the proof the claim is false
(`C46_false_statement_accepted`). -/
theorem C92_false_claim_partial {L : Nat} (keccak : Bytes → Commitment) {toBytes : FE → Bytes}
    (hinj : Function.Injective toBytes) (hlen : ∀ x, (toBytes x).length = 32) {env : Env FE T} {air : Air FE Ch} {a b : Nat}
    (S : Setting air a b) {d : Domain FE} (hd : Domain.new env.ta air = .ok d) {w : FE} (hw : env.ta.root (a + b) = some w)
    (hc : ∀ ch, ∃ cs, PolynomialConstraints air ch cs ∧ cs.length = air.context.numTransitionConstraints) {nb : Nat}
    (hb : ∀ ch boundary, air.boundaryConstraints ch = .ok boundary → boundary.length = nb ∧
      ∀ c ∈ boundary, c.col < air.context.traceColumns ∧ c.step < 2 ^ a)
    {c0 c1 : Nat} (hcols : c0 + c1 = air.context.traceColumns) {roots queries q r : Nat} (hroots : 1 ≤ roots)
    (hroots' : c1 = 0 ∨ 2 ≤ roots) (hq : q ≤ queries) (hL : 32 * (air.context.traceColumns + 2) ≤ L)
    {R m : Nat} (hR : DecodingRadius a b R m)
    (hfalse : ∀ rows ch, rows.length = 2 ^ a → (∀ r ∈ rows, r.length = air.context.traceColumns) →
      ¬ Satisfies air rows air.context.traceColumns ch)
    (ask : List (Commitment × Reply air.numRapChallenges nb air.context.numTransitionConstraints
        (air.context.traceColumns * air.context.transitionOffsets.length) q r) →
      Question L (air.context.traceColumns * air.context.transitionOffsets.length) (a + 5)) (N : Nat)
    (out : List (Commitment × Reply air.numRapChallenges nb air.context.numTransitionConstraints
        (air.context.traceColumns * air.context.transitionOffsets.length) q r) → StarkProof FE) :
    probability (Question L (air.context.traceColumns * air.context.transitionOffsets.length) (a + 5) → Commitment ×
        Reply air.numRapChallenges nb air.context.numTransitionConstraints
          (air.context.traceColumns * air.context.transitionOffsets.length) q r)
      (fun O =>
        let p := out (answers O ask N)
        let hashes := keccakHashes (hashOf keccak O) toBytes
        ProofShape p a b air.context.traceColumns roots air.context.transitionOffsets.length queries ∧
          ∃ l c, Accepts { env with hashes := hashes } air d a b (digestsOf O) p l c ∧ TraceOpened hashes c0 p c.iotas)
      ≤ questionsAsked a b q N * attemptError nb air.context.numTransitionConstraints air.context.traceColumns
          air.context.transitionOffsets.length a b R m q air.context.proofOptions.grindingFactor.toNat
        + (4 * questionsAsked a b q N ^ 2 : ℚ) / 2 ^ 256 := by
  refine (probability_mono ?_).trans (C92_any_prover_partial keccak hinj hlen S hd hw hc hb hcols hroots hroots' hq hL hR
    (Q := fun _ => False) (fun rows ch h1 h2 h3 => hfalse rows ch h1 h2 h3) ask N out)
  rintro O ⟨hshape, l, c, hacc, hopen⟩
  obtain ⟨t, ht, -⟩ := C92_first_named O ask N l
  exact ⟨l, t, c, ht, hshape, hacc, hopen, fun ⟨_, _, h⟩ => h⟩

section cairo
open CairoAir ProofOptions

/-- **C92** for the Cairo AIR, without conditions on what the prover asks.
Missing: as for `C92_any_prover_partial`. -/
theorem C92_cairo_any_prover_partial {L : Nat} (hL : 2016 ≤ L) (keccak : Bytes → Commitment) {env : Env FE T}
    {opts : ProofOptions} {a b : Nat} {d : Domain FE} {w : FE} {R m : Nat} (ha : 1 ≤ a) (hb : 1 ≤ b) {pi : PublicInputs}
    (hsteps : pi.numSteps ≤ 2 ^ a) (hblow : opts.blowupFactor.toNat = 2 ^ b) (hoff : (opts.cosetOffset : FE) ≠ 0)
    (hd : Domain.new env.ta (CairoAir.air (2 ^ a) pi opts) = .ok d) (hw : env.ta.root (a + b) = some w)
    (hR : DecodingRadius a b R m) {q r : Nat}
    (ask : List (Commitment × Reply 3 8 (numTransitionConstraints (hasRcBuiltin pi)) (traceColumns (hasRcBuiltin pi) * 2)
      q r) → Question L (traceColumns (hasRcBuiltin pi) * 2) (a + 5)) (N : Nat)
    (out : List (Commitment × Reply 3 8 (numTransitionConstraints (hasRcBuiltin pi)) (traceColumns (hasRcBuiltin pi) * 2)
      q r) → StarkProof FE) :
    probability (Question L (traceColumns (hasRcBuiltin pi) * 2) (a + 5) → Commitment ×
        Reply 3 8 (numTransitionConstraints (hasRcBuiltin pi)) (traceColumns (hasRcBuiltin pi) * 2) q r)
      (fun O =>
        let p := out (answers O ask N)
        let hashes := keccakHashes (hashOf keccak O) feToBytesBe
        let c0 := traceColumns (hasRcBuiltin pi) - 18
        ∃ l t c, FirstNamed O ask N l t ∧ ProofShape p a b (traceColumns (hasRcBuiltin pi)) 2 2 q ∧
          Accepts { env with hashes := hashes } (CairoAir.air (2 ^ a) pi opts) d a b (digestsOf O) p l c ∧
          TraceOpened hashes c0 p c.iotas ∧
          ¬ DecodesTo d w opts.cosetOffset a b R
            ((extracted feToBytesBe a b c0 18 (traceColumns (hasRcBuiltin pi))).main
              (hashed Question.text Prod.fst ask (answers O ask t), l.first 1)) (SelectedRun pi))
      ≤ questionsAsked a b q N * attemptError 8 (numTransitionConstraints (hasRcBuiltin pi))
          (traceColumns (hasRcBuiltin pi)) 2 a b R m q opts.grindingFactor.toNat
        + (4 * questionsAsked a b q N ^ 2 : ℚ) / 2 ^ 256 := by
  have h2 : 2 ^ 1 ≤ 2 ^ a := Nat.pow_le_pow_right (by norm_num) ha
  have hcols : 52 ≤ traceColumns (hasRcBuiltin pi) ∧ traceColumns (hasRcBuiltin pi) ≤ 61 := by
    cases hasRcBuiltin pi <;> simp [traceColumns]
  exact C92_any_prover_partial keccak feToBytesBe_injective length_feToBytesBe (air := CairoAir.air (2 ^ a) pi opts)
    ⟨ha, hb, rfl, hblow, hoff, air_fits (by omega) pi opts⟩ hd hw (cairo_polynomials (by omega) pi opts) (nb := 8)
    (cairo_boundary ha hsteps opts) (c0 := traceColumns (hasRcBuiltin pi) - 18) (c1 := 18)
    (Nat.sub_add_cancel (by omega)) (roots := 2) (queries := q) (by norm_num) (.inr le_rfl) le_rfl
    (show 32 * (traceColumns (hasRcBuiltin pi) + 2) ≤ L by omega) hR (Q := SelectedRun pi)
    (fun rows ch hl hrect hsat => cairo_selected ha hsteps hl hrect hsat) ask N out

/-- **C92** for the levels of `new_secure`, without conditions on what the prover asks: for `2^7` to `2^40` rows and columns
decoded up to the part `189 / 512` of the points.
Missing: as for `C92_any_prover_partial`. -/
theorem C92_cairo_any_prover_levels_partial {L : Nat} (hL : 2016 ≤ L) (keccak : Bytes → Commitment) {env : Env FE T}
    {level : SecurityLevel} {bits off : Nat} (hl : (level, bits) ∈ [(SecurityLevel.conjecturable80Bits, 40),
      (.conjecturable100Bits, 47), (.conjecturable128Bits, 56), (.provable80Bits, 73), (.provable100Bits, 89),
      (.provable128Bits, 113)])
    {a : Nat} {d : Domain FE} {w : FE} (ha : 7 ≤ a) (ha' : a ≤ 40) {pi : PublicInputs} (hsteps : pi.numSteps ≤ 2 ^ a)
    (hoff : (off : FE) ≠ 0) (hd : Domain.new env.ta (CairoAir.air (2 ^ a) pi (newSecure level off)) = .ok d)
    (hw : env.ta.root (a + 2) = some w) {r : Nat}
    (ask : List (Commitment × Reply 3 8 (numTransitionConstraints (hasRcBuiltin pi)) (traceColumns (hasRcBuiltin pi) * 2)
      (newSecure level off).friNumberOfQueries r) → Question L (traceColumns (hasRcBuiltin pi) * 2) (a + 5)) (N : Nat)
    (out : List (Commitment × Reply 3 8 (numTransitionConstraints (hasRcBuiltin pi)) (traceColumns (hasRcBuiltin pi) * 2)
      (newSecure level off).friNumberOfQueries r) → StarkProof FE) :
    probability (Question L (traceColumns (hasRcBuiltin pi) * 2) (a + 5) → Commitment ×
        Reply 3 8 (numTransitionConstraints (hasRcBuiltin pi)) (traceColumns (hasRcBuiltin pi) * 2)
          (newSecure level off).friNumberOfQueries r)
      (fun O =>
        let p := out (answers O ask N)
        let hashes := keccakHashes (hashOf keccak O) feToBytesBe
        let c0 := traceColumns (hasRcBuiltin pi) - 18
        ∃ l t c, FirstNamed O ask N l t ∧
          ProofShape p a 2 (traceColumns (hasRcBuiltin pi)) 2 2 (newSecure level off).friNumberOfQueries ∧
          Accepts { env with hashes := hashes } (CairoAir.air (2 ^ a) pi (newSecure level off)) d a 2 (digestsOf O) p l c ∧
          TraceOpened hashes c0 p c.iotas ∧
          ¬ DecodesTo d w off a 2 (189 * 2 ^ (a - 7) - 1)
            ((extracted feToBytesBe a 2 c0 18 (traceColumns (hasRcBuiltin pi))).main
              (hashed Question.text Prod.fst ask (answers O ask t), l.first 1)) (SelectedRun pi))
      ≤ questionsAsked a 2 (newSecure level off).friNumberOfQueries N / 2 ^ bits
        + (4 * questionsAsked a 2 (newSecure level off).friNumberOfQueries N ^ 2 : ℚ) / 2 ^ 256 := by
  obtain ⟨c, rfl⟩ : ∃ c, a = c + 7 := ⟨a - 7, by omega⟩
  rw [Nat.add_sub_cancel]
  have hblow : (newSecure level off).blowupFactor.toNat = 2 ^ 2 := by cases level <;> rfl
  have hgrind : (newSecure level off).grindingFactor.toNat = 20 := by cases level <;> rfl
  have hcos : (newSecure level off).cosetOffset = off := by cases level <;> rfl
  have h := C92_cairo_any_prover_partial hL keccak (env := env) (by omega) (b := 2) (by norm_num) hsteps hblow
    (by rw [hcos]; exact hoff) hd hw (radius_cube c) ask N out
  rw [hgrind, hcos] at h
  refine h.trans (add_le_add_left ?_ _)
  rw [div_eq_mul_one_div]
  exact mul_le_mul_of_nonneg_left (attemptError_levels off hl ha' pi) (Nat.cast_nonneg _)

/-- **C92**: false claims to the Cairo verifier with the levels of `new_secure`.
Missing: as for `C92_any_prover_partial`. -/
theorem C92_cairo_false_claim_levels_partial {L : Nat} (hL : 2016 ≤ L) (keccak : Bytes → Commitment) {env : Env FE T}
    {level : SecurityLevel} {bits off : Nat} (hl : (level, bits) ∈ [(SecurityLevel.conjecturable80Bits, 40),
      (.conjecturable100Bits, 47), (.conjecturable128Bits, 56), (.provable80Bits, 73), (.provable100Bits, 89),
      (.provable128Bits, 113)])
    {a : Nat} {d : Domain FE} {w : FE} (ha : 7 ≤ a) (ha' : a ≤ 40) {pi : PublicInputs} (hsteps : pi.numSteps ≤ 2 ^ a)
    (hoff : (off : FE) ≠ 0) (hd : Domain.new env.ta (CairoAir.air (2 ^ a) pi (newSecure level off)) = .ok d)
    (hw : env.ta.root (a + 2) = some w)
    (hfalse : ∀ rows ch, rows.length = 2 ^ a →
      ¬ Satisfies (CairoAir.air rows.length pi (newSecure level off)) rows (traceColumns (hasRcBuiltin pi)) ch) {r : Nat}
    (ask : List (Commitment × Reply 3 8 (numTransitionConstraints (hasRcBuiltin pi)) (traceColumns (hasRcBuiltin pi) * 2)
      (newSecure level off).friNumberOfQueries r) → Question L (traceColumns (hasRcBuiltin pi) * 2) (a + 5)) (N : Nat)
    (out : List (Commitment × Reply 3 8 (numTransitionConstraints (hasRcBuiltin pi)) (traceColumns (hasRcBuiltin pi) * 2)
      (newSecure level off).friNumberOfQueries r) → StarkProof FE) :
    probability (Question L (traceColumns (hasRcBuiltin pi) * 2) (a + 5) → Commitment ×
        Reply 3 8 (numTransitionConstraints (hasRcBuiltin pi)) (traceColumns (hasRcBuiltin pi) * 2)
          (newSecure level off).friNumberOfQueries r)
      (fun O =>
        let p := out (answers O ask N)
        let hashes := keccakHashes (hashOf keccak O) feToBytesBe
        ProofShape p a 2 (traceColumns (hasRcBuiltin pi)) 2 2 (newSecure level off).friNumberOfQueries ∧
          ∃ l c, Accepts { env with hashes := hashes } (CairoAir.air (2 ^ a) pi (newSecure level off)) d a 2 (digestsOf O) p
            l c ∧ TraceOpened hashes (traceColumns (hasRcBuiltin pi) - 18) p c.iotas)
      ≤ questionsAsked a 2 (newSecure level off).friNumberOfQueries N / 2 ^ bits
        + (4 * questionsAsked a 2 (newSecure level off).friNumberOfQueries N ^ 2 : ℚ) / 2 ^ 256 := by
  obtain ⟨c, rfl⟩ : ∃ c, a = c + 7 := ⟨a - 7, by omega⟩
  have hblow : (newSecure level off).blowupFactor.toNat = 2 ^ 2 := by cases level <;> rfl
  have hgrind : (newSecure level off).grindingFactor.toNat = 20 := by cases level <;> rfl
  have hcos : (newSecure level off).cosetOffset = off := by cases level <;> rfl
  have hcols : 52 ≤ traceColumns (hasRcBuiltin pi) ∧ traceColumns (hasRcBuiltin pi) ≤ 61 := by
    cases hasRcBuiltin pi <;> simp [traceColumns]
  have h2 : 2 ^ 1 ≤ 2 ^ (c + 7) := Nat.pow_le_pow_right (by norm_num) (by omega)
  have h := C92_false_claim_partial keccak feToBytesBe_injective length_feToBytesBe (env := env)
    (air := CairoAir.air (2 ^ (c + 7)) pi (newSecure level off)) (b := 2)
    ⟨by omega, by norm_num, rfl, hblow, by rw [show (CairoAir.air (2 ^ (c + 7)) pi
      (newSecure level off)).context.proofOptions.cosetOffset = off from hcos]; exact hoff, air_fits (by omega) pi _⟩ hd hw
    (cairo_polynomials (by omega) pi _) (nb := 8) (cairo_boundary (by omega) hsteps _)
    (c0 := traceColumns (hasRcBuiltin pi) - 18) (c1 := 18) (Nat.sub_add_cancel (by omega)) (roots := 2)
    (queries := (newSecure level off).friNumberOfQueries) (by norm_num) (.inr le_rfl) le_rfl
    (show 32 * (traceColumns (hasRcBuiltin pi) + 2) ≤ L by omega) (radius_cube c)
    (fun rows ch h1 _ h3 => hfalse rows ch h1 (by rw [h1]; exact h3)) ask N out
  refine h.trans (add_le_add_left ?_ _)
  rw [show (CairoAir.air (2 ^ (c + 7)) pi (newSecure level off)).context.proofOptions.grindingFactor.toNat = 20 from hgrind,
    div_eq_mul_one_div]
  exact mul_le_mul_of_nonneg_left (attemptError_levels off hl ha' pi) (Nat.cast_nonneg _)

end cairo

/-- The false claim for which the code accepts proofs of another shape (`C46_false_statement_accepted`) meets the hypothesis of
`C92_cairo_false_claim_levels_partial`. -/
example : (∀ rows ch, rows.length = 2 ^ 7 →
      ¬ Satisfies (CairoAir.air rows.length falseStatement (ProofOptions.newSecure .provable128Bits 3)) rows
        (CairoAir.traceColumns (CairoAir.hasRcBuiltin falseStatement)) ch) ∧
    falseStatement.numSteps ≤ 2 ^ 7 :=
  ⟨fun rows ch _ => falseStatement_unsatisfiable rows _ _ ch, by decide⟩

/-- The hypotheses of `C92_cairo_any_prover_levels_partial` are met by the claim of the example run with 128 rows; with the
level for 128 bits, a thousand million questions are together with those of the verifier less than `2^34`. -/
example : (∃ (d : Domain FE) (w : FE), starkRoots.root (7 + 2) = some w ∧
    Domain.new starkRoots (CairoAir.air (2 ^ 7) Examples.main0.2 (ProofOptions.newSecure .provable128Bits 3)) = .ok d ∧
    Examples.main0.2.numSteps ≤ 2 ^ 7 ∧ ((3 : Nat) : FE) ≠ 0) ∧
    questionsAsked 7 2 (ProofOptions.newSecure .provable128Bits 3).friNumberOfQueries (10 ^ 9) < 2 ^ 34 := by
  obtain ⟨w, hw⟩ := Option.isSome_iff_exists.mp (starkRoots.defined (7 + 2) (by norm_num) (by decide))
  obtain ⟨d, hd⟩ := domain_exists (ta := starkRoots)
    (air := CairoAir.air (2 ^ 7) Examples.main0.2 (ProofOptions.newSecure .provable128Bits 3)) (a := 7) (b := 2)
    (by norm_num) rfl rfl (by norm_num) (by decide)
  exact ⟨⟨d, w, hw, hd, by decide +kernel, by decide +kernel⟩, by
    rw [show (ProofOptions.newSecure .provable128Bits 3).friNumberOfQueries = 140 from rfl]
    norm_num [questionsAsked]⟩

end Verif.Props
