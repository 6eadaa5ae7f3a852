import Verif.Lemmas.Complete
import Verif.Lemmas.AuxTrace
import Verif.Spec.Verifier

/-!
# Accepted proofs
-/

namespace Verif
open Polynomial Spec
variable {F T Ch : Type} [Field F] [DecidableEq F] {env : Env F T}

/-- A fold that conjoins results is true when every result is. -/
theorem foldlM_and {α : Type} {f : Bool → α → Outcome Empty Bool} {p : α → Prop} (l : List α)
    (ht : ∀ x ∈ l, (f true x = .ok true ↔ p x)) (hf : ∀ x ∈ l, f false x ≠ .ok true) (b : Bool) :
    l.foldlM f b = .ok true ↔ b = true ∧ ∀ x ∈ l, p x := by
  induction l generalizing b with
  | nil => simp
  | cons x t ih =>
    rw [List.foldlM_cons, Outcome.bind_eq_ok]
    have ih' := ih (fun y hy => ht y (by simp [hy])) (fun y hy => hf y (by simp [hy]))
    constructor
    · rintro ⟨b', h1, h2⟩
      obtain ⟨rfl, h3⟩ := (ih' b').mp h2
      cases b
      · exact absurd h1 (hf x (by simp))
      · refine ⟨rfl, fun y hy => ?_⟩
        rcases List.mem_cons.mp hy with rfl | hy
        · exact (ht y (by simp)).mp h1
        · exact h3 y hy
    · rintro ⟨rfl, h⟩
      exact ⟨true, (ht x (by simp)).mpr (h x (by simp)), (ih' true).mpr ⟨rfl, fun y hy => h y (by simp [hy])⟩⟩

/-- One layer of a query. -/
theorem verifyLayer_true {proof : StarkProof F} {zetas : List F} {iota : Nat} {q : FriDecommitment F}
    {d : Domain F} {k : Nat} {root : Commitment} {path pathSym : MerkleProof} {v vSym pointInv : F}
    {acc : F} {r : Bool × F} {b : Bool} :
    verifyLayer env proof zetas iota q d 2⁻¹ (b, acc) ((((((k, root), path), v), pathSym), vSym), pointInv)
        = .ok r ∧ r.1 = true ↔
      b = true ∧ k ≤ d.ldeRootOrder ∧ q.layersEvaluations ≠ [] ∧
      Merkle.verify env.hashes.leaf env.hashes.node path root iota v = true ∧
      Merkle.verify env.hashes.leaf env.hashes.node pathSym root
        ((iota + 2 ^ (d.ldeRootOrder - k) / 2) % 2 ^ (d.ldeRootOrder - k)) vSym = true ∧
      ∃ ζ, zetas[k]? = some ζ ∧
        r = (true, (acc + vSym) * 2⁻¹ + ζ * (acc - vSym) * 2⁻¹ * pointInv) ∧
        r.2 = (q.layersEvaluations[k + 1]?).getD proof.friLastValue := by
  unfold verifyLayer
  simp only [Outcome.bind_eq_ok, Outcome.pure_eq, checkedSub_ok]
  constructor
  · rintro ⟨⟨e, ⟨he1, rfl⟩, ζ, hζ, l, ⟨hl, rfl⟩, h⟩, hr⟩
    rw [index_eq_ok] at hζ
    have hne : q.layersEvaluations ≠ [] := by
      intro h0
      rw [h0] at hl
      simp at hl
    split at h
    · rename_i hlt
      simp only [Outcome.bind_eq_ok, index_eq_ok, Outcome.ok.injEq] at h
      obtain ⟨next, hn, rfl⟩ := h
      simp only [Bool.and_eq_true, decide_eq_true_eq] at hr
      obtain ⟨⟨⟨rfl, h1⟩, h2⟩, h3⟩ := hr
      refine ⟨rfl, he1, hne, h2, h3, ζ, hζ, ?_, ?_⟩
      · simp only [h1, h2, h3, decide_true, Bool.and_self]
      · rw [hn]
        exact h1
    · rename_i hlt
      simp only [Outcome.ok.injEq] at h
      subst h
      simp only [Bool.and_eq_true, decide_eq_true_eq] at hr
      obtain ⟨⟨⟨rfl, h1⟩, h2⟩, h3⟩ := hr
      refine ⟨rfl, he1, hne, h2, h3, ζ, hζ, ?_, ?_⟩
      · simp only [h1, h2, h3, decide_true, Bool.and_self]
      · rw [List.getElem?_eq_none (by omega)]
        exact h1
  · rintro ⟨rfl, he, hne, h2, h3, ζ, hζ, rfl, hv⟩
    refine ⟨⟨_, ⟨he, rfl⟩, ζ, index_eq_ok.mpr hζ, _, ⟨List.length_pos_of_ne_nil hne, rfl⟩, ?_⟩, rfl⟩
    have hpos := List.length_pos_of_ne_nil hne
    simp only at hv
    split
    · rename_i hlt
      have hk : k + 1 < q.layersEvaluations.length := by omega
      simp only [Outcome.bind_eq_ok, index_eq_ok]
      refine ⟨_, List.getElem?_eq_getElem hk, ?_⟩
      rw [List.getElem?_eq_getElem hk] at hv
      simp only [Option.getD_some] at hv
      simp only [hv, h2, h3, decide_true, Bool.and_self]
    · rename_i hlt
      rw [List.getElem?_eq_none (by omega)] at hv
      simp only [Option.getD_none] at hv
      simp only [hv, h2, h3, decide_true, Bool.and_self]

/-- The check of one item of a query. -/
def ItemHolds (env : Env F T) (proof : StarkProof F) (zetas : List F) (iota : Nat) (q : FriDecommitment F)
    (d : Domain F) (item : LayerItem F) : Prop :=
  item.1.1.1.1.1.1 ≤ d.ldeRootOrder ∧
  Merkle.verify env.hashes.leaf env.hashes.node item.1.1.1.1.2 item.1.1.1.1.1.2 iota item.1.1.1.2 = true ∧
  Merkle.verify env.hashes.leaf env.hashes.node item.1.1.2 item.1.1.1.1.1.2
    ((iota + 2 ^ (d.ldeRootOrder - item.1.1.1.1.1.1) / 2) % 2 ^ (d.ldeRootOrder - item.1.1.1.1.1.1))
    item.1.2 = true ∧
  ∃ ζ, zetas[item.1.1.1.1.1.1]? = some ζ ∧
    (item.1.1.1.2 + item.1.2) * 2⁻¹ + ζ * (item.1.1.1.2 - item.1.2) * 2⁻¹ * item.2
      = (q.layersEvaluations[item.1.1.1.1.1.1 + 1]?).getD proof.friLastValue

theorem verifyLayers_false {proof : StarkProof F} {zetas : List F} {iota : Nat} {q : FriDecommitment F}
    {d : Domain F} (l : List (LayerItem F)) (acc : F) (r : Bool × F)
    (h : l.foldlM (verifyLayer env proof zetas iota q d 2⁻¹) (false, acc) = .ok r) : r.1 = false := by
  induction l generalizing acc with
  | nil =>
    obtain rfl := Outcome.ok.inj h
    rfl
  | cons x t ih =>
    rw [List.foldlM_cons, Outcome.bind_eq_ok] at h
    obtain ⟨⟨b, v⟩, h1, h2⟩ := h
    cases b
    · exact ih v h2
    · exact absurd (verifyLayer_true.mp ⟨h1, rfl⟩).1 (by simp)

theorem verifyLayers_true {proof : StarkProof F} {zetas : List F} {iota : Nat} {q : FriDecommitment F}
    {d : Domain F} (hne : q.layersEvaluations ≠ []) (l : List (LayerItem F)) (k0 : Nat) (acc : F)
    (hacc : ∀ item, l[0]? = some item → acc = item.1.1.1.2)
    (hidx : ∀ (j : Nat) item, l[j]? = some item →
      item.1.1.1.1.1.1 = k0 + j ∧ q.layersEvaluations[k0 + j]? = some item.1.1.1.2) :
    (∃ r, l.foldlM (verifyLayer env proof zetas iota q d 2⁻¹) (true, acc) = .ok r ∧ r.1 = true) ↔
      ∀ item ∈ l, ItemHolds env proof zetas iota q d item := by
  induction l generalizing acc k0 with
  | nil => exact ⟨fun _ item h => absurd h (by simp), fun _ => ⟨_, rfl, rfl⟩⟩
  | cons x t ih =>
    obtain ⟨⟨⟨⟨⟨⟨k, root⟩, path⟩, v⟩, pathSym⟩, vSym⟩, pointInv⟩ := x
    obtain rfl : acc = v := hacc _ rfl
    obtain ⟨hk, hv⟩ := hidx 0 _ rfl
    simp only [Nat.add_zero] at hk
    subst hk
    have ih' : ∀ acc', acc' = (q.layersEvaluations[k + 1]?).getD proof.friLastValue →
        ((∃ r, t.foldlM (verifyLayer env proof zetas iota q d 2⁻¹) (true, acc') = .ok r ∧ r.1 = true) ↔
          ∀ item ∈ t, ItemHolds env proof zetas iota q d item) := by
      intro acc' hacc'
      refine ih (k + 1) acc' (fun item hi => ?_) fun j item hj => ?_
      · obtain ⟨-, h2⟩ := hidx 1 item (by simpa using hi)
        rw [hacc', h2]
        rfl
      · obtain ⟨h1, h2⟩ := hidx (j + 1) item (by simpa using hj)
        rw [show k + 1 + j = k + (j + 1) from by ring]
        exact ⟨h1, h2⟩
    rw [List.foldlM_cons]
    constructor
    · rintro ⟨r, h1, h2⟩
      rw [Outcome.bind_eq_ok] at h1
      obtain ⟨⟨b, v'⟩, h1, h3⟩ := h1
      cases b
      · exact absurd (verifyLayers_false _ _ _ h3) (by simp [h2])
      · obtain ⟨-, g1, -, g3, g4, ζ, g5, g6, g7⟩ := verifyLayer_true.mp ⟨h1, rfl⟩
        have g8 := (Prod.mk.inj g6).2
        intro item hi
        rcases List.mem_cons.mp hi with rfl | hi
        · exact ⟨g1, g3, g4, ζ, g5, g8 ▸ g7⟩
        · exact (ih' v' g7).mp ⟨r, h3, h2⟩ item hi
    · intro h
      obtain ⟨g1, g3, g4, ζ, g5, g7⟩ := h _ List.mem_cons_self
      obtain ⟨r, h3, h2⟩ := (ih' _ g7).mpr fun item hi => h item (List.mem_cons_of_mem _ hi)
      refine ⟨r, ?_, h2⟩
      rw [Outcome.bind_eq_ok]
      exact ⟨_, (verifyLayer_true.mpr ⟨rfl, g1, hne, g3, g4, ζ, g5, rfl, g7⟩).1, h3⟩

omit [DecidableEq F] in
theorem layerItems_getElem? {proof : StarkProof F} {q : FriDecommitment F} {p : F} {k : Nat}
    {item : LayerItem F} :
    (layerItems proof q p)[k]? = some item ↔
      item.1.1.1.1.1.1 = k ∧ proof.friLayersMerkleRoots[k]? = some item.1.1.1.1.1.2 ∧
      q.layersAuthPaths[k]? = some item.1.1.1.1.2 ∧ q.layersEvaluations[k]? = some item.1.1.1.2 ∧
      q.layersAuthPathsSym[k]? = some item.1.1.2 ∧ q.layersEvaluationsSym[k]? = some item.1.2 ∧
      item.2 = p ^ 2 ^ k := by
  obtain ⟨⟨⟨⟨⟨⟨k', root⟩, path⟩, v⟩, pathSym⟩, vSym⟩, pointInv⟩ := item
  simp only [layerItems, List.getElem?_zip_eq_some, List.getElem?_map]
  constructor
  · rintro ⟨⟨⟨⟨⟨⟨h1, h2⟩, h3⟩, h4⟩, h5⟩, h6⟩, h7⟩
    have hk := (List.getElem?_eq_some_iff.mp h2).1
    rw [List.getElem?_range hk] at h1 h7
    simp only [Option.map_some, Option.some.injEq] at h1 h7
    exact ⟨h1.symm, h2, h3, h4, h5, h6, h7.symm⟩
  · rintro ⟨rfl, h2, h3, h4, h5, h6, rfl⟩
    have hk := (List.getElem?_eq_some_iff.mp h2).1
    simp only [List.getElem?_range hk, Option.map_some]
    exact ⟨⟨⟨⟨⟨⟨trivial, h2⟩, h3⟩, h4⟩, h5⟩, h6⟩, trivial⟩

omit [DecidableEq F] in
theorem foldValue_eq {ζ x v v' : F} (k : Nat) :
    (v + v') * 2⁻¹ + ζ * (v - v') * 2⁻¹ * x⁻¹ ^ 2 ^ k = foldValue ζ (x ^ 2 ^ k) v v' := by
  unfold foldValue
  rw [inv_pow, div_eq_mul_inv, div_eq_mul_inv, mul_inv]
  ring

/-- The check of a query. -/
theorem verifyQuery_true {proof : StarkProof F} {zetas : List F} {iota : Nat} {q : FriDecommitment F}
    {d : Domain F} {x : F} :
    verifyQuery env proof zetas iota q d x⁻¹ 2⁻¹ = .ok true ↔
      QueryHolds env proof zetas d.ldeRootOrder iota x q := by
  unfold verifyQuery QueryHolds
  simp only [Outcome.bind_eq_ok, index_eq_ok, Outcome.pure_eq, Outcome.ok.injEq]
  have key : ∀ (hne : q.layersEvaluations ≠ []) (v : F), q.layersEvaluations[0]? = some v →
      ((∃ r, (layerItems proof q x⁻¹).foldlM (verifyLayer env proof zetas iota q d 2⁻¹) (true, v) = .ok r ∧
        r.1 = true) ↔ ∀ item ∈ layerItems proof q x⁻¹, ItemHolds env proof zetas iota q d item) := by
    intro hne v hv
    refine verifyLayers_true hne _ 0 v (fun item hi => ?_) fun j item hj => ?_
    · have := (layerItems_getElem?.mp hi).2.2.2.1
      rw [hv] at this
      exact Option.some.inj this
    · obtain ⟨h1, -, -, h4, -⟩ := layerItems_getElem?.mp hj
      rw [Nat.zero_add]
      exact ⟨h1, h4⟩
  constructor
  · rintro ⟨v, hv, r, hr⟩
    have hne : q.layersEvaluations ≠ [] := by
      intro h0
      rw [h0] at hv
      cases hv
    refine ⟨hne, fun k root path e pathSym eSym h1 h2 h3 h4 h5 => ?_⟩
    have hitem : (layerItems proof q x⁻¹)[k]?
        = some ((((((k, root), path), e), pathSym), eSym), x⁻¹ ^ 2 ^ k) :=
      layerItems_getElem?.mpr ⟨rfl, h1, h2, h3, h4, h5, rfl⟩
    obtain ⟨g1, g2, g3, ζ, g4, g5⟩ := (key hne v hv).mp ⟨r, hr⟩ _ (List.mem_of_getElem? hitem)
    exact ⟨ζ, g4, g1, g2, g3, by rw [← foldValue_eq]; exact g5⟩
  · rintro ⟨hne, h⟩
    have hv : q.layersEvaluations[0]? = some (q.layersEvaluations[0]'(List.length_pos_of_ne_nil hne)) :=
      List.getElem?_eq_getElem _
    refine ⟨_, hv, (key hne _ hv).mpr fun item hi => ?_⟩
    obtain ⟨k, hk⟩ := List.getElem?_of_mem hi
    obtain ⟨h1, h2, h3, h4, h5, h6, h7⟩ := layerItems_getElem?.mp hk
    obtain ⟨ζ, g4, G⟩ := h k _ _ _ _ _ h2 h3 h4 h5 h6
    refine ⟨by rw [h1]; exact G.order, G.opened, by rw [h1]; exact G.openedSym, ζ, by rw [h1]; exact g4, ?_⟩
    rw [h7, foldValue_eq, h1]
    exact G.folds

/-- The check of the queries. -/
theorem step3_true {proof : StarkProof F} {d : Domain F} {c : Challenges F Ch} :
    step3 env proof d c = .ok true ↔
      (2 : F) ≠ 0 ∧ (∀ iota ∈ c.iotas, ∃ x, d.ldeRootsOfUnityCoset[iota]? = some x ∧ x ≠ 0) ∧
      ∀ (i : Nat) q iota x, proof.queryList[i]? = some q → c.iotas[i]? = some iota →
        d.ldeRootsOfUnityCoset[iota]? = some x →
        QueryHolds env proof c.zetas d.ldeRootOrder iota x q := by
  unfold step3
  by_cases h2 : (2 : F) = 0
  · simp [invOrPanic, h2, Outcome.bind_eq_ok]
  simp only [invOrPanic, if_neg h2, Outcome.bind_ok]
  rw [Outcome.bind_eq_ok]
  have hfold : ∀ points : List F, mapOutcome (fun iota => index d.ldeRootsOfUnityCoset iota) c.iotas = (.ok points : Outcome Empty _) →
      (((proof.queryList.zip c.iotas).zip (points.map (·⁻¹))).foldlM (fun result x => do
        let ok ← verifyQuery env proof c.zetas x.1.2 x.1.1 d x.2 2⁻¹
        pure (result && ok)) true = .ok true ↔
      ∀ (i : Nat) q iota x, proof.queryList[i]? = some q → c.iotas[i]? = some iota →
        d.ldeRootsOfUnityCoset[iota]? = some x →
        QueryHolds env proof c.zetas d.ldeRootOrder iota x q) := by
    intro points hp
    rw [foldlM_and (p := fun x => verifyQuery env proof c.zetas x.1.2 x.1.1 d x.2 2⁻¹ = .ok true)]
    · constructor
      · rintro ⟨-, h⟩ i q iota x h1 h3 h4
        obtain ⟨y, hy1, hy2⟩ := mapOutcome_getElem? hp h3
        rw [index_eq_ok, h4] at hy2
        obtain rfl := Option.some.inj hy2
        refine verifyQuery_true.mp (h ((q, iota), x⁻¹) (List.mem_of_getElem? (i := i) ?_))
        rw [List.getElem?_zip_eq_some, List.getElem?_zip_eq_some, List.getElem?_map, hy1]
        exact ⟨⟨h1, h3⟩, rfl⟩
      · refine fun h => ⟨rfl, fun x hx => ?_⟩
        obtain ⟨i, hi⟩ := List.getElem?_of_mem hx
        obtain ⟨⟨q, iota⟩, inv⟩ := x
        rw [List.getElem?_zip_eq_some, List.getElem?_zip_eq_some, List.getElem?_map] at hi
        obtain ⟨⟨h1, h3⟩, h4⟩ := hi
        simp only at h1 h3 h4
        obtain ⟨y, hy1, hy2⟩ := mapOutcome_getElem? hp h3
        rw [hy1] at h4
        obtain rfl := Option.some.inj h4
        rw [index_eq_ok] at hy2
        exact verifyQuery_true.mpr (h i q iota y h1 h3 hy2)
    · intro x _
      simp [Outcome.bind_eq_ok]
    · intro x _
      simp [Outcome.bind_eq_ok]
  constructor
  · rintro ⟨points, hp, h⟩
    rw [Outcome.bind_eq_ok] at h
    obtain ⟨inv, hinv, h⟩ := h
    obtain ⟨hne, rfl⟩ := batchInverse_eq_ok.mp hinv
    refine ⟨h2, fun iota hi => ?_, (hfold points hp).mp h⟩
    obtain ⟨i, hi⟩ := List.getElem?_of_mem hi
    obtain ⟨x, hx1, hx2⟩ := mapOutcome_getElem? hp hi
    exact ⟨x, index_eq_ok.mp hx2, hne x (List.mem_of_getElem? hx1)⟩
  · rintro ⟨-, h, h'⟩
    have hp : mapOutcome (fun iota => index d.ldeRootsOfUnityCoset iota) c.iotas
        = (.ok (c.iotas.map fun iota => d.ldeRootsOfUnityCoset.getD iota 0) : Outcome Empty _) := by
      refine mapOutcome_eq_map _ fun iota hi => ?_
      obtain ⟨x, hx, -⟩ := h iota hi
      rw [index_eq_ok, hx]
      simp [List.getD, hx]
    refine ⟨_, hp, ?_⟩
    rw [batchInverse_ok, Outcome.bind_ok]
    · exact (hfold _ hp).mpr h'
    · intro x hx
      obtain ⟨iota, hi, rfl⟩ := List.mem_map.mp hx
      obtain ⟨x, hx, hx0⟩ := h iota hi
      simpa [List.getD, hx] using hx0

omit [Field F] [DecidableEq F] in
theorem foldlM_sum_of_ok {α : Type} {M : Type} [AddCommMonoid M] {f : M → α → Outcome Empty M} {g : α → M}
    (l : List α) (h : ∀ x ∈ l, ∀ acc r, f acc x = .ok r → r = acc + g x) (acc r : M)
    (hr : l.foldlM f acc = .ok r) : r = acc + (l.map g).sum := by
  induction l generalizing acc with
  | nil =>
    obtain rfl := Outcome.ok.inj hr
    simp
  | cons a t ih =>
    rw [List.foldlM_cons, Outcome.bind_eq_ok] at hr
    obtain ⟨s, h1, h2⟩ := hr
    rw [ih (fun x hx => h x (by simp [hx])) s h2, h a (by simp) _ _ h1, List.map_cons, List.sum_cons, add_assoc]

omit [Field F] [DecidableEq F] in
theorem frame_cell {f : Frame F} {r j : Nat} {row : List F} {v : F} [Zero F]
    (hrow : f.getRow r = (.ok row : Outcome Empty _)) (hv : row[j]? = some v) :
    f.data.getD (r * f.rowWidth + j) 0 = v := by
  unfold Frame.getRow subslice at hrow
  split at hrow
  · obtain rfl := Outcome.ok.inj hrow
    rw [Nat.add_sub_cancel_left] at hv
    obtain ⟨hj, -⟩ := List.getElem?_eq_some_iff.mp hv
    rw [List.length_take] at hj
    rw [List.getElem?_take_of_lt (by omega), List.getElem?_drop] at hv
    simp [List.getD, hv]
  · cases hrow

theorem reconstructDeep_value {proof : StarkProof F} {c : Challenges F Ch} {g x : F} {divisors : List F}
    (hd : ∀ (r : Nat) v, divisors[r]? = some v → v = (x - c.z * g ^ r)⁻¹) {i : Nat}
    {o : DeepPolynomialOpenings F} (ho : proof.deepPolyOpenings[i]? = some o) {v : F}
    (h : reconstructDeep proof c (x - c.z ^ 2)⁻¹ divisors i = .ok v) :
    v = deepValue proof c g x o := by
  unfold reconstructDeep at h
  rw [index_ok ho, Outcome.bind_ok] at h
  simp only [Outcome.bind_eq_ok, Outcome.pure_eq, Outcome.ok.injEq] at h
  obtain ⟨s, hs, rfl⟩ := h
  have := foldlM_sum_of_ok (g := fun y : Nat × List F =>
    (((List.range (frameHeight proof.traceOodFrameEvaluations)).zip y.2).map fun u : Nat × F =>
      u.2 * ((o.ldeTraceEvaluations.getD y.1 0 - frameCell proof.traceOodFrameEvaluations u.1 y.1)
        / (x - c.z * g ^ u.1))).sum) _ (by
      rintro ⟨j, γs⟩ hj acc r hr
      simp only [Outcome.bind_eq_ok, Outcome.pure_eq, Outcome.ok.injEq] at hr
      obtain ⟨rows, hrows, t, ht, rfl⟩ := hr
      have hh : rows = frameHeight proof.traceOodFrameEvaluations := by
        unfold Frame.numRows at hrows
        split at hrows
        · cases hrows
        · exact (Outcome.ok.inj hrows).symm
      subst hh
      have := foldlM_sum_of_ok (g := fun u : Nat × F =>
        u.2 * ((o.ldeTraceEvaluations.getD j 0 - frameCell proof.traceOodFrameEvaluations u.1 j)
          / (x - c.z * g ^ u.1))) _ (by
          rintro ⟨r, γ⟩ hu acc t ht
          simp only [Outcome.bind_eq_ok, Outcome.pure_eq, Outcome.ok.injEq, index_eq_ok] at ht
          obtain ⟨t0, ht0, row, hrow, u0, hu0, d0, hd0, rfl⟩ := ht
          rw [hd r d0 hd0]
          unfold frameCell
          rw [frame_cell hrow hu0]
          simp only [List.getD, ht0, Option.getD_some, div_eq_mul_inv]
          ring) _ _ ht
      rw [this, zero_add]) _ _ hs
  rw [this, zero_add]
  unfold deepValue
  simp only [div_eq_mul_inv]
  ring

/-- The result of a fold that conjoins results. -/
theorem foldlM_and_value {α : Type} {f : Bool → α → Outcome Empty Bool} {p : α → Prop} (l : List α)
    (h : ∀ x ∈ l, ∀ b r, f b x = .ok r → (r = true ↔ b = true ∧ p x)) {b r : Bool}
    (hr : l.foldlM f b = .ok r) : r = true ↔ b = true ∧ ∀ x ∈ l, p x := by
  induction l generalizing b with
  | nil =>
    obtain rfl := Outcome.ok.inj hr
    simp
  | cons x t ih =>
    rw [List.foldlM_cons, Outcome.bind_eq_ok] at hr
    obtain ⟨s, h1, h2⟩ := hr
    rw [ih (fun y hy => h y (by simp [hy])) h2, h x (by simp) _ _ h1]
    simp [and_assoc]

/-- The check of an opening. -/
theorem verifyDeepAt_value {air : Air F Ch} {proof : StarkProof F} {d : Domain F} {c : Challenges F Ch} {g x : F}
    {i iota : Nat} {o : DeepPolynomialOpenings F} (hx : d.ldeRootsOfUnityCoset[iota]? = some x)
    (ho : proof.deepPolyOpenings[i]? = some o) {b r : Bool}
    (h : verifyDeepAt env air proof d c g b (i, ((iota, o), (x - c.z ^ 2)⁻¹)) = .ok r) :
    ∃ q, proof.queryList[i]? = some q ∧ (r = true ↔ b = true ∧ OpeningHolds env proof c iota g x o q) := by
  unfold verifyDeepAt at h
  simp only [Outcome.bind_eq_ok, Outcome.pure_eq, Outcome.ok.injEq, index_eq_ok] at h
  obtain ⟨-, -, -, -, rows, hrows, pts, hpts, divs, hdivs, v, hv, q, hq, cl, hcl, rfl⟩ := h
  obtain ⟨-, rfl⟩ := batchInverse_eq_ok.mp hdivs
  have hval := reconstructDeep_value (g := g) (fun r u hu => by
    rw [List.getElem?_map, Option.map_eq_some_iff] at hu
    obtain ⟨u', hu', rfl⟩ := hu
    have hr : r < rows := by
      have h1 := (List.getElem?_eq_some_iff.mp hu').1
      rw [ExecTrace.mapOutcome_length hpts] at h1
      simpa using h1
    obtain ⟨y, hy1, hy2⟩ := mapOutcome_getElem? hpts (List.getElem?_range hr)
    simp only [Outcome.bind_eq_ok, Outcome.pure_eq, Outcome.ok.injEq, index_eq_ok] at hy2
    obtain ⟨x', hx', rfl⟩ := hy2
    rw [hx] at hx'
    obtain rfl := Option.some.inj hx'
    rw [hu'] at hy1
    rw [Option.some.inj hy1]) ho hv
  subst hval
  refine ⟨q, hq, ?_⟩
  simp only [Bool.and_eq_true, decide_eq_true_eq]
  constructor
  · rintro ⟨⟨h1, h2⟩, rfl⟩
    exact ⟨h1, h2, hcl⟩
  · rintro ⟨h1, O⟩
    exact ⟨⟨h1, O.opened⟩, Option.some.inj (hcl.symm.trans O.value)⟩

/-- The check of the openings. -/
theorem step4_value {air : Air F Ch} {proof : StarkProof F} {d : Domain F} {c : Challenges F Ch} {g : F}
    (hg : env.ta.getRoot d.rootOrder = (.ok g : Outcome Empty F)) {r : Bool}
    (h : step4 env air proof d c = .ok r) :
    r = true ↔ ∀ (i : Nat) iota o x, c.iotas[i]? = some iota → proof.deepPolyOpenings[i]? = some o →
      d.ldeRootsOfUnityCoset[iota]? = some x →
      ∃ q, proof.queryList[i]? = some q ∧ OpeningHolds env proof c iota g x o q := by
  unfold step4 at h
  rw [hg, Outcome.bind_ok] at h
  simp only [Outcome.bind_eq_ok] at h
  obtain ⟨points, hp, inv, hinv, h⟩ := h
  obtain ⟨hne, rfl⟩ := batchInverse_eq_ok.mp hinv
  have key : ∀ (i iota : Nat) o inv, ((c.iotas.zip proof.deepPolyOpenings).zip (points.map (·⁻¹)))[i]?
        = some ((iota, o), inv) ↔ c.iotas[i]? = some iota ∧ proof.deepPolyOpenings[i]? = some o ∧
        ∃ x, d.ldeRootsOfUnityCoset[iota]? = some x ∧ inv = (x - c.z ^ 2)⁻¹ := by
    intro i iota o inv
    rw [List.getElem?_zip_eq_some, List.getElem?_zip_eq_some, List.getElem?_map]
    have hpt : ∀ (_ : c.iotas[i]? = some iota), ∃ x, d.ldeRootsOfUnityCoset[iota]? = some x ∧
        points[i]? = some (x - c.z ^ 2) := by
      intro hi
      obtain ⟨y, hy1, hy2⟩ := mapOutcome_getElem? hp hi
      simp only [Outcome.bind_eq_ok, Outcome.pure_eq, Outcome.ok.injEq, index_eq_ok] at hy2
      obtain ⟨x', hx', rfl⟩ := hy2
      exact ⟨x', hx', hy1⟩
    constructor
    · rintro ⟨⟨hi, ho⟩, hv⟩
      obtain ⟨x, hx, hpx⟩ := hpt hi
      rw [hpx] at hv
      exact ⟨hi, ho, x, hx, (Option.some.inj hv).symm⟩
    · rintro ⟨hi, ho, x, hx, rfl⟩
      obtain ⟨x', hx', hpx⟩ := hpt hi
      rw [hx] at hx'
      obtain rfl := Option.some.inj hx'
      rw [hpx]
      exact ⟨⟨hi, ho⟩, rfl⟩
  rw [foldlM_and_value (p := fun y => ∀ x, d.ldeRootsOfUnityCoset[y.2.1.1]? = some x →
    ∃ q, proof.queryList[y.1]? = some q ∧ OpeningHolds env proof c y.2.1.1 g x y.2.1.2 q) _ ?_ h]
  · simp only [true_and]
    constructor
    · intro hall i iota o x hi ho hx
      have hmem := (key i iota o _).mpr ⟨hi, ho, x, hx, rfl⟩
      have hlt := (List.getElem?_eq_some_iff.mp hmem).1
      exact hall (i, ((iota, o), (x - c.z ^ 2)⁻¹)) (List.mem_of_getElem? (i := i) (by
        rw [List.getElem?_zip_eq_some]
        exact ⟨List.getElem?_range hlt, hmem⟩)) x hx
    · rintro hall ⟨k, ⟨iota, o⟩, inv⟩ hy x hx
      obtain ⟨i, hi⟩ := List.getElem?_of_mem hy
      rw [List.getElem?_zip_eq_some] at hi
      obtain ⟨hk, hi⟩ := hi
      obtain ⟨hlt, hk⟩ := List.getElem?_eq_some_iff.mp hk
      rw [List.getElem_range] at hk
      subst hk
      obtain ⟨h1, h2, -⟩ := (key _ _ _ _).mp hi
      exact hall _ _ _ _ h1 h2 hx
  · rintro ⟨k, ⟨iota, o⟩, inv⟩ hy b r hr
    obtain ⟨i, hi⟩ := List.getElem?_of_mem hy
    rw [List.getElem?_zip_eq_some] at hi
    obtain ⟨hk, hi⟩ := hi
    obtain ⟨hlt, hk⟩ := List.getElem?_eq_some_iff.mp hk
    rw [List.getElem_range] at hk
    subst hk
    obtain ⟨h1, h2, x, hx, rfl⟩ := (key _ _ _ _).mp hi
    obtain ⟨q, hq, hiff⟩ := verifyDeepAt_value hx h2 hr
    rw [hiff]
    refine and_congr_right fun _ => ⟨fun O x' hx' => ?_, fun hall => ?_⟩
    · obtain rfl := Option.some.inj (hx.symm.trans hx')
      exact ⟨q, hq, O⟩
    · obtain ⟨q', hq', O⟩ := hall x hx
      obtain rfl := Option.some.inj (hq.symm.trans hq')
      exact O

/-- The check of the openings, when it succeeds. -/
theorem step4_true {air : Air F Ch} {proof : StarkProof F} {d : Domain F} {c : Challenges F Ch} {g : F}
    (hg : env.ta.getRoot d.rootOrder = (.ok g : Outcome Empty F))
    (h : step4 env air proof d c = .ok true) :
    ∀ (i : Nat) iota o x, c.iotas[i]? = some iota → proof.deepPolyOpenings[i]? = some o →
      d.ldeRootsOfUnityCoset[iota]? = some x →
      ∃ q, proof.queryList[i]? = some q ∧ OpeningHolds env proof c iota g x o q :=
  (step4_value hg h).mp rfl

theorem oodBoundary_value {ta : TwoAdic F} {d : Domain F} {a b : Nat} {h g w : F} (D : IsDomain ta d a b h g w)
    {proof : StarkProof F} {boundary : List (BoundaryConstraint F)} {z : F} {coeffs : List (F × F)}
    {n bound : Nat} {v : F} (hv : oodBoundary proof boundary d z coeffs (bound - n) = .ok v) :
    v = boundaryAt g z n bound (fun j => frameCell proof.traceOodFrameEvaluations 0 j) boundary coeffs := by
  unfold oodBoundary at hv
  simp only [Outcome.bind_eq_ok, Outcome.pure_eq, Outcome.ok.injEq] at hv
  obtain ⟨pairs, hp, dens, hd, rfl⟩ := hv
  obtain ⟨-, rfl⟩ := batchInverse_eq_ok.mp hd
  have hlen := ExecTrace.mapOutcome_length hp
  have hpairs : pairs = boundary.map fun c : BoundaryConstraint F =>
      (frameCell proof.traceOodFrameEvaluations 0 c.col - c.value, z - g ^ c.step) := by
    refine List.ext_getElem (by simp [hlen]) fun j h1 h2 => ?_
    have hj : j < boundary.length := by omega
    obtain ⟨y, hy1, hy2⟩ := mapOutcome_getElem? hp (List.getElem?_eq_getElem hj)
    simp only [Outcome.bind_eq_ok, Outcome.pure_eq, Outcome.ok.injEq, index_eq_ok] at hy2
    obtain ⟨row, hrow, u, hu, rfl⟩ := hy2
    rw [List.getElem?_eq_getElem h1] at hy1
    rw [Option.some.inj hy1, List.getElem_map]
    unfold frameCell
    rw [frame_cell hrow hu, D.tracePrimitiveRoot]
  rw [foldl_add_sum, zero_add, hpairs]
  unfold boundaryAt
  congr 1
  refine List.ext_getElem (by simp) fun j h1 h2 => ?_
  simp only [List.getElem_map, List.getElem_zip]
  rw [div_eq_mul_inv]

/-- The out-of-domain check. -/
theorem step2_value {ta : TwoAdic F} {d : Domain F} {a b : Nat} {h g w : F} (D : IsDomain ta d a b h g w)
    {air : Air F Ch} (hfit : Fits air) (hn : air.traceLength = 2 ^ a) {proof : StarkProof F}
    {c : Challenges F Ch} {r : Bool} (hs : step2 air proof d c = .ok r) :
    ∃ boundary evals, air.boundaryConstraints c.rapChallenges = .ok boundary ∧
      air.computeTransition proof.traceOodFrameEvaluations c.rapChallenges = .ok evals ∧
      (r = true ↔ proof.compositionPolyEvenOodEvaluation + c.z * proof.compositionPolyOddOodEvaluation
        = compositionOf air g (fun j => frameCell proof.traceOodFrameEvaluations 0 j) boundary evals
            c.boundaryCoeffs c.transitionCoeffs c.z) := by
  unfold step2 at hs
  obtain ⟨m, hm⟩ := hfit.max
  obtain ⟨me, hme⟩ := hfit.maxExemption
  have hpos : 0 < 2 ^ a := by positivity
  obtain ⟨l, hl1, hl2, hl3⟩ := transitionExemptionsVerifier_eq (g := g) D.g_primitive.pow_eq_one hpos hme
  have hlast : d.traceRootsOfUnity.getLast? = some (g ^ (2 ^ a - 1)) := by
    rw [D.traceRoots, List.getLast?_map, List.getLast?_range, if_neg (by omega)]; rfl
  have hadj := hfit.adjustments hm (f := fun k => c.z ^ k)
  rw [Outcome.bind_eq_ok] at hs
  obtain ⟨boundary, hb, hs⟩ := hs
  simp only [checkedSub, if_pos hfit.bound_ge, Outcome.bind_ok] at hs
  rw [Outcome.bind_eq_ok] at hs
  obtain ⟨v, hv, hs⟩ := hs
  rw [Outcome.bind_eq_ok] at hs
  obtain ⟨evals, hev, hs⟩ := hs
  refine ⟨boundary, evals, hb, hev, ?_⟩
  rw [Outcome.bind_eq_ok] at hs
  obtain ⟨den, hden, hs⟩ := hs
  have hden' : den = (c.z ^ 2 ^ a - 1)⁻¹ := by
    unfold invOrPanic at hden
    split at hden
    · cases hden
    · rw [hn] at hden
      exact (Outcome.ok.inj hden).symm
  subst hden'
  simp only [Outcome.bind_ok, hlast, Outcome.ofOptionUnwrap, hl1, hm, hn] at hs
  simp only [hn, checkedSub] at hadj
  rw [hadj, Outcome.bind_ok, oodTransition_ok hfit hn hm hme hl3, Outcome.bind_ok, Outcome.pure_eq,
    Outcome.ok.injEq] at hs
  rw [← hs, decide_eq_true_eq, oodBoundary_value D hv]
  unfold compositionOf
  rw [hn]

/-- The out-of-domain check, when it succeeds. -/
theorem step2_true {ta : TwoAdic F} {d : Domain F} {a b : Nat} {h g w : F} (D : IsDomain ta d a b h g w)
    {air : Air F Ch} (hfit : Fits air) (hn : air.traceLength = 2 ^ a) {proof : StarkProof F}
    {c : Challenges F Ch} (hs : step2 air proof d c = .ok true) :
    ∃ boundary evals, air.boundaryConstraints c.rapChallenges = .ok boundary ∧
      air.computeTransition proof.traceOodFrameEvaluations c.rapChallenges = .ok evals ∧
      proof.compositionPolyEvenOodEvaluation + c.z * proof.compositionPolyOddOodEvaluation
        = compositionOf air g (fun j => frameCell proof.traceOodFrameEvaluations 0 j) boundary evals
            c.boundaryCoeffs c.transitionCoeffs c.z := by
  obtain ⟨boundary, evals, hb, he, h⟩ := step2_value D hfit hn hs
  exact ⟨boundary, evals, hb, he, h.mp rfl⟩

end Verif
