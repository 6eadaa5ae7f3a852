import Verif.Model.Fri
import Verif.Lemmas.TwoAdic
import Verif.Props.Grinding

/-!
# A small environment for the examples

The field with 17 elements, a transcript that counts, and hash functions that keep some bytes of their
input. Not part of the model of the code.
-/

namespace Verif.Examples

/-- The value of a successful computation. -/
def getOk {ε α : Type} : (x : Outcome ε α) → x.isOk = true → α
  | .ok a, _ => a

/-- 32 bytes ending with the given one. -/
def digest (x : UInt8) : Commitment := ⟨List.replicate 31 0 ++ [x], rfl⟩

/-- A transcript that counts the challenges it has given. -/
def counter : Transcript UInt8 where
  init := 0
  append := fun t _ => t
  challenge := fun t => (digest t, t + 1)

/-- The environment of the examples, with a first state for the transcript. -/
def env17From (start : UInt8) : Env (ZMod 17) UInt8 where
  ta := roots17
  tr := { counter with init := start }
  toBytes := fun x => [UInt8.ofNat x.val]
  ofDigest := fun d => ((d.val.getLastD 0).toNat : ZMod 17)
  hashes :=
    { leafBatch := fun l => digest (UInt8.ofNat (l.headD 0).val)
      leaf := fun x => digest (UInt8.ofNat x.val)
      node := fun a b => digest (a.val.getLastD 0 + 2 * b.val.getLastD 0) }
  keccak := fun _ => digest 0

/-- The environment of the examples. -/
def env17 : Env (ZMod 17) UInt8 := env17From 0

theorem after17 (start : UInt8) (k : Nat) (t : UInt8) :
    (env17From start).tr.after k t = t + UInt8.ofNat k := by
  induction k generalizing t with
  | zero => simp [Transcript.after]
  | succ k ih =>
    rw [Transcript.after, ih]
    show t + 1 + UInt8.ofNat k = _
    rw [Nat.add_comm k 1, UInt8.ofNat_add, ← UInt8.add_assoc]
    rfl

theorem toField17 (start t : UInt8) :
    (env17From start).tr.toField (env17From start).ofDigest t = ((t.toNat : ZMod 17), t + 1) := rfl

theorem samples17 (start t : UInt8) (k : Nat) : ((env17From start).samples k t).2 = t + UInt8.ofNat k := by
  induction k generalizing t with
  | zero => simp [Env.samples, Transcript.batchSample]
  | succ k ih =>
    have := ih (t + 1)
    unfold Env.samples at this ⊢
    rw [Transcript.batchSample]
    simp only [toField17]
    rw [this, Nat.add_comm k 1, UInt8.ofNat_add, ← UInt8.add_assoc]
    rfl

theorem append17 (start t : UInt8) (l : Bytes) : (env17From start).tr.append t l = t := rfl

/-- The sampling of the out-of-domain point ends when the two lists leave some element of the field. -/
theorem sampleZOod17 (start : UInt8) (lde trace : List (ZMod 17)) (t : UInt8)
    (h : lde.length + trace.length < 17) :
    (env17From start).tr.sampleZOod (env17From start).ofDigest lde trace t ≠ none := by
  classical
  obtain ⟨x, hx⟩ : ∃ x : ZMod 17, x ∉ (lde ++ trace).toFinset := by
    by_contra hcc
    push Not at hcc
    have h1 : (Finset.univ : Finset (ZMod 17)) ⊆ (lde ++ trace).toFinset := fun x _ => hcc x
    have h2 := Finset.card_le_card h1
    have h3 := List.toFinset_card_le (lde ++ trace)
    simp [ZMod.card] at h2 h3
    omega
  simp only [List.mem_toFinset, List.mem_append, not_or] at hx
  unfold Transcript.sampleZOod
  rw [dif_pos]
  · simp
  · refine ⟨(UInt8.ofNat x.val - t).toNat, ?_⟩
    rw [after17, toField17, UInt8.ofNat_toNat, UInt8.add_comm, UInt8.sub_add_cancel, UInt8.toNat_ofNat']
    have : x.val < 17 := x.val_lt
    rw [Nat.mod_eq_of_lt (by omega), ZMod.natCast_val, ZMod.cast_id]
    exact hx

/-- A nonce for the target zero always exists. -/
theorem generateNonce_zero (keccak : Bytes → Commitment) (challenge : Commitment) :
    Grinding.generateNonce keccak challenge 0 ≠ none := by
  rw [Ne, Props.C52_search_fails_iff]
  intro h
  exact h 0 (by norm_num) ((Props.C52_check_iff keccak challenge 0 0).mp (Nat.zero_le _))

end Verif.Examples
