import Verif.Examples.StarkEnv
import Mathlib.Data.ZMod.Basic

/-!
# An environment over the Stark field whose transcript counts through the whole field

Not part of the model of the code.
-/

namespace Verif.Examples

/-- A transcript that counts in the field. -/
def fieldCounter : Transcript FE where
  init := 0
  append := fun t _ => t
  challenge := fun t => (⟨feToBytesBe t, length_feToBytesBe t⟩, t + 1)

/-- The environment with this transcript. -/
def envWide : Env FE FE where
  ta := starkRoots
  tr := fieldCounter
  toBytes := envStark.toBytes
  ofDigest := fun d => (beNat d.val : FE)
  hashes := envStark.hashes
  keccak := envStark.keccak

theorem afterWide (k : Nat) (t : FE) : envWide.tr.after k t = t + k := by
  induction k generalizing t with
  | zero => simp [Transcript.after]
  | succ k ih =>
    rw [Transcript.after, ih]
    show t + 1 + (k : FE) = _
    push_cast
    ring

theorem toFieldWide (t : FE) : envWide.tr.toField envWide.ofDigest t = (t, t + 1) := by
  refine Prod.ext ?_ rfl
  show ((beNat (beBytes 32 t.val) : Nat) : FE) = t
  rw [beNat_beBytes _ _ (fe_val_lt t), ZMod.natCast_zmod_val]

/-- The sampling of the out-of-domain point ends when the two lists do not fill the field. -/
theorem sampleZOodWide (lde trace : List FE) (t : FE) (h : lde.length + trace.length < P) :
    envWide.tr.sampleZOod envWide.ofDigest lde trace t ≠ none := by
  classical
  obtain ⟨x, hx⟩ : ∃ x : FE, x ∉ (lde ++ trace).toFinset := by
    by_contra hcc
    push Not at hcc
    have h2 := Finset.card_le_card (fun x _ => hcc x : Finset.univ ⊆ (lde ++ trace).toFinset)
    have h3 := List.toFinset_card_le (lde ++ trace)
    rw [Finset.card_univ, ZMod.card] at h2
    rw [List.length_append] at h3
    omega
  simp only [List.mem_toFinset, List.mem_append, not_or] at hx
  unfold Transcript.sampleZOod
  rw [dif_pos]
  · simp
  · refine ⟨(x - t).val, ?_⟩
    rw [afterWide, toFieldWide, ZMod.natCast_zmod_val, add_sub_cancel]
    exact hx

end Verif.Examples
