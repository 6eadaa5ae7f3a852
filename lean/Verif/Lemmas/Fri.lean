import Verif.Model.Verifier
import Verif.Lemmas.Poly
import Verif.Lemmas.Merkle
import Verif.Lemmas.Trace

/-!
# Lemmas about the FRI commitment and its queries
-/

namespace Verif
open Polynomial
variable {F T : Type} [Field F] [DecidableEq F]

/-! ## Folds in the outcome monad -/

/-- An invariant over the steps of a fold that may panic. -/
theorem foldlM_invariant {α σ : Type} {f : σ → α → Outcome Empty σ} {l : List α} (P : Nat → σ → Prop)
    {s : σ} (h0 : P 0 s)
    (hstep : ∀ (k : Nat) (a : α) (s : σ), l[k]? = some a → P k s → ∃ s', f s a = .ok s' ∧ P (k + 1) s') :
    ∃ s', l.foldlM f s = .ok s' ∧ P l.length s' := by
  induction l generalizing s P with
  | nil => exact ⟨s, rfl, h0⟩
  | cons a t ih =>
    obtain ⟨s1, h1, h2⟩ := hstep 0 a s (by simp) h0
    obtain ⟨s', h3, h4⟩ := ih (fun k => P (k + 1)) h2
      (fun k b s hb hP => hstep (k + 1) b s (by simpa using hb) hP)
    refine ⟨s', ?_, by simpa using h4⟩
    rw [List.foldlM_cons, h1]
    exact h3

theorem ofOptionUnwrap_ok {ε α : Type} {o : Option α} {a : α} :
    (Outcome.ofOptionUnwrap o : Outcome ε α) = .ok a ↔ o = some a := by
  unfold Outcome.ofOptionUnwrap
  cases o <;> simp

theorem checkedSub_ok {a b c : Nat} : checkedSub a b = .ok c ↔ b ≤ a ∧ c = a - b := by
  unfold checkedSub
  split
  · simp only [Outcome.ok.injEq]; constructor
    · intro h; exact ⟨by assumption, h.symm⟩
    · intro h; exact h.2.symm
  · constructor
    · intro h; cases h
    · intro h; omega

theorem mapOutcome_getElem? {ε α β : Type} {f : α → Outcome ε β} {l : List α} {bs : List β}
    (h : mapOutcome f l = .ok bs) {i : Nat} {a : α} (ha : l[i]? = some a) :
    ∃ b, bs[i]? = some b ∧ f a = .ok b := by
  obtain ⟨hl, hm⟩ := mapOutcome_mem h
  obtain ⟨hi, rfl⟩ := List.getElem?_eq_some_iff.mp ha
  exact ⟨bs[i]'(by omega), List.getElem?_eq_getElem _, hm i hi (by omega)⟩

/-! ## Points of the layers -/

/-- The square root of one. -/
theorem root_half {ta : TwoAdic F} {m : Nat} {w : F} (hw : ta.root (m + 1) = some w) :
    w ^ (2 ^ m) = -1 := by
  have hp := ta.primitive (m + 1) w (by omega) hw
  have h1 : (w ^ 2 ^ m) ^ 2 = 1 := by
    rw [← pow_mul, ← pow_succ]; exact hp.pow_eq_one
  rcases (sq_eq_sq_iff_eq_or_eq_neg (a := w ^ 2 ^ m) (b := 1)).mp (by rw [h1, one_pow]) with h | h
  · have := hp.dvd_of_pow_eq_one _ h
    have h2 := Nat.le_of_dvd (by positivity) this
    rw [pow_succ] at h2
    have : 0 < 2 ^ m := by positivity
    omega
  · exact h

namespace Fri

/-- A layer that was built from a polynomial of small degree: its values are those of the polynomial on
the coset and its tree is over them. -/
theorem layer_new_ok {env : Env F T} {p : F[X]} {h w : F} {m : Nat} (hm : m < 64)
    (hp : p.degree < (2 ^ m : Nat)) (hw : env.ta.root m = some w) :
    ∃ tree, Merkle.build env.hashes.leaf env.hashes.node
        ((List.range (2 ^ m)).map fun i => p.eval (w ^ i * h)) = .ok tree ∧
      FriLayer.new env p h (2 ^ m)
        = .ok ⟨(List.range (2 ^ m)).map fun i => p.eval (w ^ i * h), tree, h, 2 ^ m⟩ := by
  have he := evaluateOffsetFft_ok (b := 0) (h := h) hp (by omega) (by simpa using hw)
  rw [pow_zero, Nat.add_zero] at he
  unfold FriLayer.new
  rw [he]
  have hb := Merkle.build_ok env.hashes.leaf env.hashes.node
    ((List.range (2 ^ m)).map fun i => p.eval (w ^ i * h)) m (by simp)
  refine ⟨_, hb, ?_⟩
  simp only [Outcome.bind_ok, hb]
  rfl

/-- The layers `ls` and challenges `zs` fold `p`, through the polynomials `ps`, to `q`. -/
structure Folds (env : Env F T) (p : F[X]) (h : F) (m : Nat) (ls : List (FriLayer F)) (zs : List F)
    (q : F[X]) (ps : Nat → F[X]) : Prop where
  start : ps 0 = p
  stop : ps ls.length = q
  lengths : zs.length = ls.length
  layer : ∀ k l, ls[k]? = some l → FriLayer.new env (ps k) (h ^ 2 ^ k) (2 ^ (m - k)) = .ok l
  next : ∀ k z, zs[k]? = some z → ps (k + 1) = foldPolynomial (ps k) z

theorem commitLoop_folds {env : Env F T} {k m : Nat} (hkm : k ≤ m) {p q : F[X]} {t0 t' : T} {h : F}
    {layer : FriLayer F} {ls : List (FriLayer F)}
    (hlayer : FriLayer.new env p h (2 ^ m) = .ok layer)
    (hloop : commitLoop env k p (env.tr.append t0 layer.merkleTree.root.val) h (2 ^ m)
      = .ok (q, t', ls)) :
    ls.length = k ∧ ∃ zs ps,
      sampleZetas env ((layer :: ls).map (·.merkleTree.root)) t0 = (zs, (env.sample t').2) ∧
      Folds env p h m (layer :: ls) zs (foldPolynomial q (env.sample t').1) ps := by
  induction k generalizing m p t0 h layer ls with
  | zero =>
    simp only [commitLoop, Outcome.ok.injEq, Prod.mk.injEq] at hloop
    obtain ⟨rfl, rfl, rfl⟩ := hloop
    refine ⟨rfl, [_], fun k => if k = 0 then p else foldPolynomial p (env.sample
      (env.tr.append t0 layer.merkleTree.root.val)).1, rfl, ?_⟩
    refine ⟨rfl, rfl, rfl, ?_, ?_⟩
    · intro k l hl
      cases k with
      | zero =>
        simp at hl
        subst hl
        simpa using hlayer
      | succ k => simp at hl
    · intro k z hz
      cases k with
      | zero => simp at hz; subst hz; simp
      | succ k => simp at hz
  | succ k ih =>
    obtain ⟨m, rfl⟩ : ∃ m', m = m' + 1 := ⟨m - 1, by omega⟩
    simp only [commitLoop, Outcome.bind_eq_ok, Outcome.pure_eq, Outcome.ok.injEq, Prod.mk.injEq] at hloop
    obtain ⟨layer', hl', r, hr, h1, h2, h3⟩ := hloop
    have hhalf : 2 ^ (m + 1) / 2 = 2 ^ m := by rw [pow_succ]; omega
    rw [hhalf] at hl' hr
    obtain ⟨r1, r2, r3⟩ := r
    simp only at h1 h2 h3
    subst h1 h2 h3
    obtain ⟨hlen, zs, ps, hz, hf⟩ := ih (by omega) hl' hr
    refine ⟨by simp [hlen], (env.sample (env.tr.append t0 layer.merkleTree.root.val)).1 :: zs, fun k => if k = 0 then p else ps (k - 1), ?_, ?_⟩
    · rw [List.map_cons]
      unfold sampleZetas
      simp only [hz]
    · refine ⟨rfl, by simpa using hf.stop, by simp [hf.lengths], ?_, ?_⟩
      · intro j l hl
        cases j with
        | zero =>
          simp at hl
          subst hl
          simpa using hlayer
        | succ j =>
          have := hf.layer j l (by simpa using hl)
          rw [← pow_mul, ← pow_succ'] at this
          simpa using this
      · intro j z hz
        cases j with
        | zero =>
          simp at hz
          subst hz
          simpa using hf.start
        | succ j =>
          have := hf.next j z (by simpa using hz)
          simpa using this

theorem Folds.degree {env : Env F T} {p q : F[X]} {h : F} {m a : Nat} {ls : List (FriLayer F)}
    {zs : List F} {ps : Nat → F[X]} (hf : Folds env p h m ls zs q ps)
    (hp : p.degree < (2 ^ a : Nat)) (k : Nat) (hk : k ≤ a) (hkl : k ≤ ls.length) :
    (ps k).degree < (2 ^ (a - k) : Nat) := by
  induction k with
  | zero => rw [hf.start]; simpa using hp
  | succ k ih =>
    obtain ⟨z, hz⟩ : ∃ z, zs[k]? = some z :=
      ⟨zs[k]'(by rw [hf.lengths]; omega), List.getElem?_eq_getElem _⟩
    rw [hf.next k z hz]
    refine fold_degree _ _ _ ?_
    have := ih (by omega) (by omega)
    rwa [show a - k = (a - (k + 1)) + 1 by omega, pow_succ'] at this

/-- A layer opens at the query index and at the symmetric one: values of the polynomial at the point
and its opposite, with paths that verify at the verifier's indices. -/
theorem openLayer_ok {env : Env F T} {p : F[X]} {h w : F} {m : Nat} (hm : m + 1 < 64)
    (hp : p.degree < (2 ^ (m + 1) : Nat)) (hw : env.ta.root (m + 1) = some w)
    {layer : FriLayer F} (hl : FriLayer.new env p h (2 ^ (m + 1)) = .ok layer) (iota : Nat) :
    ∃ path pathSym,
      openLayer env iota layer = .ok ((pathSym, p.eval (-(w ^ iota * h))), (path, p.eval (w ^ iota * h))) ∧
      Merkle.verify env.hashes.leaf env.hashes.node path layer.merkleTree.root iota
        (p.eval (w ^ iota * h)) = true ∧
      Merkle.verify env.hashes.leaf env.hashes.node pathSym layer.merkleTree.root
        ((iota + 2 ^ (m + 1) / 2) % 2 ^ (m + 1)) (p.eval (-(w ^ iota * h))) = true := by
  obtain ⟨tree, htree, hnew⟩ := layer_new_ok (h := h) hm hp hw
  rw [hnew] at hl
  obtain rfl := Outcome.ok.inj hl
  have hpos : 0 < 2 ^ (m + 1) := by positivity
  have hlen : ((List.range (2 ^ (m + 1))).map fun i => p.eval (w ^ i * h)).length = 2 ^ (m + 1) := by simp
  have hone : w ^ 2 ^ (m + 1) = 1 := (env.ta.primitive (m + 1) w (by omega) hw).pow_eq_one
  have hmod : ∀ j, w ^ (j % 2 ^ (m + 1)) = w ^ j := fun j => (pow_eq_pow_mod j hone).symm
  have hget : ∀ j, ((List.range (2 ^ (m + 1))).map fun i => p.eval (w ^ i * h))[j % 2 ^ (m + 1)]?
      = some (p.eval (w ^ j * h)) := by
    intro j
    rw [List.getElem?_map, List.getElem?_range (Nat.mod_lt _ hpos), Option.map_some, hmod]
  have hsym : w ^ (iota + 2 ^ (m + 1) / 2) * h = -(w ^ iota * h) := by
    rw [show 2 ^ (m + 1) / 2 = 2 ^ m by rw [pow_succ]; omega, pow_add, root_half hw]
    ring
  obtain ⟨path, hpath, hv⟩ := Merkle.getProof_ok _ _ _ (m + 1) hlen tree htree (iota % 2 ^ (m + 1))
    (Nat.mod_lt _ hpos)
  obtain ⟨pathSym, hpathSym, hvSym⟩ := Merkle.getProof_ok _ _ _ (m + 1) hlen tree htree
    ((iota + 2 ^ (m + 1) / 2) % 2 ^ (m + 1)) (Nat.mod_lt _ hpos)
  refine ⟨path, pathSym, ?_, hv iota _ rfl (hget iota), ?_⟩
  · unfold openLayer
    simp only [hpos.ne', if_false]
    rw [index_eq_ok.mpr (hget (iota + 2 ^ (m + 1) / 2)), hpathSym, index_eq_ok.mpr (hget iota), hpath, hsym]
    rfl
  · have := hvSym ((iota + 2 ^ (m + 1) / 2) % 2 ^ (m + 1)) _ (Nat.mod_mod _ _)
      (hget (iota + 2 ^ (m + 1) / 2))
    rwa [hsym] at this

/-- What the layers of an honest commitment answer to a query. -/
theorem answer_layer {env : Env F T} {p q : F[X]} {h w : F} {a b : Nat} (hb : 1 ≤ b) (hab : a + b < 64)
    (hw : env.ta.root (a + b) = some w) (hp : p.degree < (2 ^ (a + b) : Nat))
    {ls : List (FriLayer F)} {zs : List F} {ps : Nat → F[X]} (hlen : ls.length = a)
    (hf : Folds env p h (a + b) ls zs q ps) (iota k : Nat) (hk : k < a) :
    ∃ layer path pathSym, ls[k]? = some layer ∧
      openLayer env iota layer = .ok ((pathSym, (ps k).eval (-((w ^ iota * h) ^ 2 ^ k))),
        (path, (ps k).eval ((w ^ iota * h) ^ 2 ^ k))) ∧
      Merkle.verify env.hashes.leaf env.hashes.node path layer.merkleTree.root iota
        ((ps k).eval ((w ^ iota * h) ^ 2 ^ k)) = true ∧
      Merkle.verify env.hashes.leaf env.hashes.node pathSym layer.merkleTree.root
        ((iota + 2 ^ (a + b - k) / 2) % 2 ^ (a + b - k)) ((ps k).eval (-((w ^ iota * h) ^ 2 ^ k)))
        = true := by
  obtain ⟨layer, hlayer⟩ : ∃ layer, ls[k]? = some layer :=
    ⟨ls[k]'(by omega), List.getElem?_eq_getElem _⟩
  have hnew := hf.layer k layer hlayer
  obtain ⟨m, hm⟩ : ∃ m, a + b - k = m + 1 := ⟨a + b - k - 1, by omega⟩
  obtain ⟨v, hv⟩ := Option.isSome_iff_exists.mp (env.ta.defined (m + 1) (by omega)
    (by have := root_le_adicity hw; omega))
  have hpow : w ^ 2 ^ k = v := root_pow (k := m + 1) (j := k) (by omega) hv (by rw [← hm, Nat.sub_add_cancel (by omega)]; exact hw)
  have hdeg : (ps k).degree < (2 ^ (m + 1) : Nat) := by
    rw [← hm]
    exact hf.degree hp k (by omega) (by omega)
  rw [hm] at hnew ⊢
  obtain ⟨path, pathSym, h1, h2, h3⟩ := openLayer_ok (by omega) hdeg hv hnew iota
  have hx : v ^ iota * h ^ 2 ^ k = (w ^ iota * h) ^ 2 ^ k := by
    rw [mul_pow, ← hpow, ← pow_mul, ← pow_mul, mul_comm iota]
  rw [hx] at h1 h2 h3
  exact ⟨layer, path, pathSym, hlayer, h1, h2, h3⟩

/-- Every query to an honest commitment has an answer. -/
theorem answerQuery_exists {env : Env F T} {p q : F[X]} {h w : F} {a b : Nat} (hb : 1 ≤ b)
    (hab : a + b < 64) (hw : env.ta.root (a + b) = some w) (hp : p.degree < (2 ^ (a + b) : Nat))
    {ls : List (FriLayer F)} {zs : List F} {ps : Nat → F[X]} (hlen : ls.length = a)
    (hf : Folds env p h (a + b) ls zs q ps) (iota : Nat) :
    ∃ d, answerQuery env ls iota = .ok d := by
  unfold answerQuery
  have : ∃ bs, mapOutcome (openLayer env iota) ls = .ok bs := by
    have key : ∀ l : List (FriLayer F), (∀ x ∈ l, ∃ y, openLayer env iota x = .ok y) →
        ∃ bs, mapOutcome (openLayer env iota) l = .ok bs := by
      intro l
      induction l with
      | nil => intro _; exact ⟨[], rfl⟩
      | cons x t ih =>
        intro hall
        obtain ⟨y, hy⟩ := hall x (by simp)
        obtain ⟨bs, hbs⟩ := ih fun z hz => hall z (by simp [hz])
        exact ⟨y :: bs, by simp [mapOutcome, hy, hbs]⟩
    refine key ls fun x hx => ?_
    obtain ⟨k, hk, rfl⟩ := List.getElem_of_mem hx
    obtain ⟨layer, path, pathSym, h1, h2, -⟩ := answer_layer hb hab hw hp hlen hf iota k (by omega)
    rw [List.getElem?_eq_getElem hk] at h1
    rw [Option.some.inj h1]
    exact ⟨_, h2⟩
  obtain ⟨bs, hbs⟩ := this
  rw [hbs]
  exact ⟨_, rfl⟩

/-- The verifier accepts the answer to a query of an honest commitment. -/
theorem verifyQuery_ok {env : Env F T} {p q : F[X]} {h w : F} {a b : Nat} (ha : 1 ≤ a) (hb : 1 ≤ b)
    (hab : a + b < 64) (hh : h ≠ 0) (hw : env.ta.root (a + b) = some w) (hp : p.degree < (2 ^ a : Nat))
    {ls : List (FriLayer F)} {zs : List F} {ps : Nat → F[X]} (hlen : ls.length = a)
    (hf : Folds env p h (a + b) ls zs q ps) (iota : Nat) {d : FriDecommitment F}
    (hd : answerQuery env ls iota = .ok d) {proof : StarkProof F} {domain : Domain F}
    (horder : domain.ldeRootOrder = a + b)
    (hroots : proof.friLayersMerkleRoots = ls.map (·.merkleTree.root))
    (hlast : q.eval ((w ^ iota * h) ^ 2 ^ a) = proof.friLastValue) :
    d.layersEvaluations[0]? = some (p.eval (w ^ iota * h)) ∧
    verifyQuery env proof zs iota d domain (w ^ iota * h)⁻¹ (2 : F)⁻¹ = .ok true := by
  have h2 : (2 : F) ≠ 0 := two_ne_zero_of_root (by omega) hw
  have hw0 : w ≠ 0 := root_ne_zero (by omega) hw
  have hp' : p.degree < (2 ^ (a + b) : Nat) := lt_of_lt_of_le hp
    (by exact_mod_cast Nat.pow_le_pow_right (by norm_num) (by omega))
  set x := w ^ iota * h with hx
  have hx0 : x ≠ 0 := mul_ne_zero (pow_ne_zero _ hw0) hh
  unfold answerQuery at hd
  simp only [Outcome.bind_eq_ok, Outcome.pure_eq, Outcome.ok.injEq] at hd
  obtain ⟨opened, hopened, rfl⟩ := hd
  have hol : opened.length = a := by rw [(mapOutcome_mem hopened).1, hlen]
  have hkey : ∀ k, k < a → ∃ layer path pathSym z, ls[k]? = some layer ∧
      opened[k]? = some ((pathSym, (ps k).eval (-(x ^ 2 ^ k))), (path, (ps k).eval (x ^ 2 ^ k))) ∧
      Merkle.verify env.hashes.leaf env.hashes.node path layer.merkleTree.root iota
        ((ps k).eval (x ^ 2 ^ k)) = true ∧
      Merkle.verify env.hashes.leaf env.hashes.node pathSym layer.merkleTree.root
        ((iota + 2 ^ (a + b - k) / 2) % 2 ^ (a + b - k)) ((ps k).eval (-(x ^ 2 ^ k))) = true ∧
      zs[k]? = some z ∧ ps (k + 1) = foldPolynomial (ps k) z := by
    intro k hk
    obtain ⟨layer, path, pathSym, h1, h2, h3, h4⟩ := answer_layer hb hab hw hp' hlen hf iota k hk
    obtain ⟨y, hy1, hy2⟩ := mapOutcome_getElem? hopened h1
    rw [h2] at hy2
    obtain rfl := Outcome.ok.inj hy2
    have hzl : k < zs.length := by rw [hf.lengths]; omega
    exact ⟨layer, path, pathSym, zs[k], h1, hy1, h3, h4, List.getElem?_eq_getElem hzl,
      hf.next k _ (List.getElem?_eq_getElem hzl)⟩
  have hfirst : (opened.map (·.2.2))[0]? = some (p.eval x) := by
    obtain ⟨_, _, _, _, -, h1, -⟩ := hkey 0 (by omega)
    rw [List.getElem?_map, h1]
    simp [hf.start]
  refine ⟨hfirst, ?_⟩
  unfold verifyQuery
  rw [index_eq_ok.mpr hfirst, Outcome.bind_ok]
  set d : FriDecommitment F := ⟨opened.map (·.1.1), opened.map (·.1.2), opened.map (·.2.1),
    opened.map (·.2.2)⟩ with hd
  have hd1 : d.layersAuthPathsSym = opened.map (·.1.1) := rfl
  have hd2 : d.layersEvaluationsSym = opened.map (·.1.2) := rfl
  have hd3 : d.layersAuthPaths = opened.map (·.2.1) := rfl
  have hd4 : d.layersEvaluations = opened.map (·.2.2) := rfl
  clear_value d
  set items := layerItems proof d x⁻¹ with hitems
  have hil : items.length = a := by
    simp [hitems, layerItems, hroots, hol, hlen, hd1, hd2, hd3, hd4]
  obtain ⟨s, hs, hP⟩ := foldlM_invariant (l := items)
    (f := verifyLayer env proof zs iota d domain (2 : F)⁻¹)
    (fun k (s : Bool × F) => s = (true, (ps k).eval (x ^ 2 ^ k))) (s := (true, p.eval x))
    (by simp [hf.start]) (by
      rintro k item s hitem rfl
      have hk : k < a := by
        rw [← hil]; exact (List.getElem?_eq_some_iff.mp hitem).1
      obtain ⟨layer, path, pathSym, z, h1, h3, h4, h5, h6, h7⟩ := hkey k hk
      have hitem' : items[k]? = some ((((((k, layer.merkleTree.root), path),
          (ps k).eval (x ^ 2 ^ k)), pathSym), (ps k).eval (-(x ^ 2 ^ k))), x⁻¹ ^ 2 ^ k) := by
        simp only [hitems, layerItems, hroots, List.length_map, hlen, hd1, hd2, hd3, hd4]
        simp [List.getElem?_zip_eq_some, List.getElem?_map, h1, h3, hk]
      rw [hitem'] at hitem
      obtain rfl := Option.some.inj hitem
      have hv : ((ps k).eval (x ^ 2 ^ k) + (ps k).eval (-(x ^ 2 ^ k))) * (2 : F)⁻¹
          + z * ((ps k).eval (x ^ 2 ^ k) - (ps k).eval (-(x ^ 2 ^ k))) * (2 : F)⁻¹ * x⁻¹ ^ 2 ^ k
          = (ps (k + 1)).eval (x ^ 2 ^ (k + 1)) := by
        rw [h7, pow_succ 2 k, pow_mul, fold_eval _ _ _ (pow_ne_zero _ hx0) h2, inv_pow]
      unfold verifyLayer
      have hsub : checkedSub domain.ldeRootOrder k = .ok (a + b - k) :=
        checkedSub_ok.mpr ⟨by omega, by omega⟩
      have hsub2 : checkedSub (opened.map (·.2.2)).length 1 = .ok (a - 1) :=
        checkedSub_ok.mpr ⟨by rw [List.length_map]; omega, by rw [List.length_map]; omega⟩
      simp only [hd4, hsub, Outcome.bind_ok, index_eq_ok.mpr h6, hsub2, h4, h5, hv]
      split
      · rename_i hlt
        obtain ⟨_, _, _, _, -, h9, -⟩ := hkey (k + 1) (by omega)
        have : (opened.map (·.2.2))[k + 1]? = some ((ps (k + 1)).eval (x ^ 2 ^ (k + 1))) := by
          rw [List.getElem?_map, h9]; rfl
        simp [index_eq_ok.mpr this]
      · rename_i hlt
        have hka : k + 1 = a := by omega
        have : (ps (k + 1)).eval (x ^ 2 ^ (k + 1)) = proof.friLastValue := by
          rw [hka, ← hlast, ← hlen, hf.stop]
        simp [this])
  rw [hs, hP]
  rfl

theorem commitLoop_exists {env : Env F T} {k m : Nat} (hkm : k < m) (hm : m < 64) {p : F[X]} {t : T}
    {h w : F} (hp : p.degree < (2 ^ m : Nat)) (hw : env.ta.root m = some w) :
    ∃ r, commitLoop env k p t h (2 ^ m) = .ok r := by
  induction k generalizing m p t h w with
  | zero => exact ⟨_, rfl⟩
  | succ k ih =>
    obtain ⟨m, rfl⟩ : ∃ m', m = m' + 1 := ⟨m - 1, by omega⟩
    obtain ⟨v, hv⟩ := Option.isSome_iff_exists.mp (env.ta.defined m (by omega)
      (by have := root_le_adicity hw; omega))
    have hhalf : 2 ^ (m + 1) / 2 = 2 ^ m := by rw [pow_succ]; omega
    have hdeg := fold_degree p (env.sample t).1 (2 ^ m) (by rwa [pow_succ'] at hp)
    obtain ⟨tree, -, hnew⟩ := layer_new_ok (env := env) (h := h ^ 2) (by omega : m < 64) hdeg hv
    unfold commitLoop
    rw [hhalf]
    simp only [hnew, Outcome.bind_ok]
    obtain ⟨r, hr⟩ := ih (t := env.tr.append (env.sample t).2 tree.root.val) (h := h ^ 2)
      (by omega) (by omega) hdeg hv
    rw [hr]
    exact ⟨_, rfl⟩

theorem commitPhase_exists {env : Env F T} {a b : Nat} (ha : 1 ≤ a) (hb : 1 ≤ b) (hab : a + b < 64)
    {p : F[X]} {t : T} {h w : F} (hp' : p.degree < (2 ^ (a + b) : Nat)) (hw : env.ta.root (a + b) = some w) :
    ∃ r, commitPhase env a p t h (2 ^ (a + b)) = .ok r := by
  obtain ⟨tree, -, hnew⟩ := layer_new_ok (env := env) (h := h) hab hp' hw
  unfold commitPhase
  simp only [hnew, Outcome.bind_ok]
  obtain ⟨r, hr⟩ := commitLoop_exists (env := env) (k := a - 1)
    (t := env.tr.append t tree.root.val) (h := h) (by omega) hab hp' hw
  rw [hr]
  exact ⟨_, rfl⟩

/-- What a commit phase produces, whatever the degree of the polynomial. -/
theorem commitPhase_layers {env : Env F T} {a b : Nat} (ha : 1 ≤ a) {p : F[X]} {t t' : T} {h last : F}
    {layers : List (FriLayer F)}
    (hc : commitPhase env a p t h (2 ^ (a + b)) = .ok (last, layers, t')) :
    layers.length = a ∧ ∃ zs q ps, Folds env p h (a + b) layers zs q ps := by
  unfold commitPhase at hc
  simp only [Outcome.bind_eq_ok, Outcome.pure_eq, Outcome.ok.injEq, Prod.mk.injEq] at hc
  obtain ⟨layer, hl, ⟨r1, r2, r3⟩, hr, h1, h2, h3⟩ := hc
  obtain ⟨hlen, zs, ps, hz, hf⟩ := commitLoop_folds (by omega) hl hr
  subst h2
  exact ⟨by simp [hlen]; omega, zs, _, ps, hf⟩

/-- What an honest commit phase produces. -/
theorem commitPhase_folds {env : Env F T} {a b : Nat} (ha : 1 ≤ a) {p : F[X]} {t t' : T} {h last : F}
    {layers : List (FriLayer F)} (hp : p.degree < (2 ^ a : Nat))
    (hc : commitPhase env a p t h (2 ^ (a + b)) = .ok (last, layers, t')) :
    layers.length = a ∧ ∃ zs q ps tz,
      sampleZetas env (layers.map (·.merkleTree.root)) t = (zs, tz) ∧ t' = env.appendField tz last ∧
      Folds env p h (a + b) layers zs q ps ∧ ∀ x, q.eval x = last := by
  unfold commitPhase at hc
  simp only [Outcome.bind_eq_ok, Outcome.pure_eq, Outcome.ok.injEq, Prod.mk.injEq] at hc
  obtain ⟨layer, hl, ⟨r1, r2, r3⟩, hr, h1, h2, h3⟩ := hc
  obtain ⟨hlen, zs, ps, hz, hf⟩ := commitLoop_folds (by omega) hl hr
  subst h2
  have hll : (layer :: r3).length = a := by simp [hlen]; omega
  refine ⟨hll, zs, _, ps, _, hz, ?_, hf, ?_⟩
  · rw [← h3, ← h1]
  · intro x
    have hdeg := hf.degree hp a le_rfl (by omega)
    rw [← hll, hf.stop, hll, Nat.sub_self, pow_zero] at hdeg
    have hc0 : foldPolynomial r1 (env.sample r2).1
        = C ((foldPolynomial r1 (env.sample r2).1).coeff 0) := by
      refine eq_C_of_degree_le_zero ?_
      rw [degree_le_iff_coeff_zero]
      intro j hj
      exact (degree_lt_iff_coeff_zero _ 1).mp hdeg j (by
        have : (0 : WithBot Nat) < (j : Nat) := hj
        exact_mod_cast this)
    rw [← h1]
    have hhead : ∀ l : List F, l.headD 0 = l.getD 0 0 := by intro l; cases l <;> rfl
    simp only at hc0 ⊢
    rw [hhead, coefficients_getD]
    conv_lhs => rw [hc0]
    simp

end Fri
end Verif
