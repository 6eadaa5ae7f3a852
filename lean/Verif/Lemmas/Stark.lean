import Verif.Spec.Stark
import Verif.Lemmas.Fri
import Mathlib.Algebra.Polynomial.Roots

/-!
# Lemmas about domains, exemptions and the sums of the constraint evaluation
-/

namespace Verif
open Polynomial
variable {F Ch : Type} [Field F]

/-! ## Domains -/

/-- The domain for a trace of length `2^a` and a blowup factor of `2^b`. -/
structure IsDomain (ta : TwoAdic F) (d : Domain F) (a b : Nat) (h g w : F) : Prop where
  a_pos : 1 ≤ a
  small : a + b < 64
  hg : ta.root a = some g
  hw : ta.root (a + b) = some w
  rootOrder : d.rootOrder = a
  lde : d.ldeRootsOfUnityCoset = (List.range (2 ^ (a + b))).map fun i => w ^ i * h
  ldeRootOrder : d.ldeRootOrder = a + b
  tracePrimitiveRoot : d.tracePrimitiveRoot = g
  traceRoots : d.traceRootsOfUnity = (List.range (2 ^ a)).map fun i => g ^ i
  cosetOffset : d.cosetOffset = h
  blowup : d.blowupFactor = 2 ^ b
  size : d.interpolationDomainSize = 2 ^ a

theorem powersCoset_ok {ta : TwoAdic F} {k count : Nat} {h : F} {l : List F} :
    ta.powersCoset k count h = .ok l ↔
      ∃ w, ta.root k = some w ∧ l = (List.range count).map fun i => w ^ i * h := by
  unfold TwoAdic.powersCoset
  simp only [Outcome.bind_eq_ok, Outcome.pure_eq, Outcome.ok.injEq, getRoot_ok]
  constructor
  · rintro ⟨w, h1, rfl⟩; exact ⟨w, h1, rfl⟩
  · rintro ⟨w, h1, rfl⟩; exact ⟨w, h1, rfl⟩

theorem domain_new {ta : TwoAdic F} {air : Air F Ch} {d : Domain F} {a b : Nat} (ha : 1 ≤ a)
    (hn : air.traceLength = 2 ^ a) (hb : air.context.proofOptions.blowupFactor.toNat = 2 ^ b)
    (hd : Domain.new ta air = .ok d) :
    ∃ g w, IsDomain ta d a b (air.context.proofOptions.cosetOffset : F) g w := by
  unfold Domain.new at hd
  simp only [Outcome.bind_eq_ok, hn, hb] at hd
  obtain ⟨g, hg, roots, hroots, hd⟩ := hd
  split at hd
  · cases hd
  rename_i hsmall
  have hab : a + b < 64 := by
    rw [← pow_add] at hsmall
    by_contra hc
    exact hsmall (Nat.pow_le_pow_right (by norm_num) (by omega))
  rw [trailingZeros_pow (by omega)] at hg hroots
  rw [← pow_add, trailingZeros_pow hab] at hd
  simp only [Outcome.bind_eq_ok, Outcome.pure_eq, Outcome.ok.injEq] at hd
  obtain ⟨lde, hlde, rfl⟩ := hd
  obtain ⟨w, hw, rfl⟩ := powersCoset_ok.mp hlde
  obtain ⟨g', hg', rfl⟩ := powersCoset_ok.mp hroots
  rw [getRoot_ok] at hg
  obtain rfl := Option.some.inj (hg'.symm.trans hg)
  exact ⟨g', w, ha, hab, hg', hw, trailingZeros_pow (by omega), rfl, rfl, rfl, by simp, rfl, rfl, rfl⟩

theorem domain_exists {ta : TwoAdic F} {air : Air F Ch} {a b : Nat} (ha : 1 ≤ a)
    (hn : air.traceLength = 2 ^ a) (hb : air.context.proofOptions.blowupFactor.toNat = 2 ^ b)
    (hab : a + b < 64) (had : a + b ≤ ta.adicity) : ∃ d, Domain.new ta air = .ok d := by
  obtain ⟨g, hg⟩ := Option.isSome_iff_exists.mp (ta.defined a ha (by omega))
  obtain ⟨w, hw⟩ := Option.isSome_iff_exists.mp (ta.defined (a + b) (by omega) had)
  unfold Domain.new
  simp only [hn, hb]
  rw [trailingZeros_pow (by omega), getRoot_ok.mpr hg, powersCoset_ok.mpr ⟨g, hg, rfl⟩]
  simp only [Outcome.bind_ok]
  rw [← pow_add, if_neg (by
    have := Nat.pow_lt_pow_right (by norm_num : 1 < 2) hab
    omega), trailingZeros_pow hab, powersCoset_ok.mpr ⟨w, hw, rfl⟩]
  exact ⟨_, rfl⟩

namespace IsDomain
variable {ta : TwoAdic F} {d : Domain F} {a b : Nat} {h g w : F}

theorem w_pow (D : IsDomain ta d a b h g w) : w ^ 2 ^ b = g := root_pow D.a_pos D.hg D.hw

theorem g_primitive (D : IsDomain ta d a b h g w) : IsPrimitiveRoot g (2 ^ a) :=
  ta.primitive a g D.a_pos D.hg

theorem w_primitive (D : IsDomain ta d a b h g w) : IsPrimitiveRoot w (2 ^ (a + b)) :=
  ta.primitive (a + b) w (by have := D.a_pos; omega) D.hw

theorem g_ne (D : IsDomain ta d a b h g w) : g ≠ 0 := root_ne_zero D.a_pos D.hg

theorem w_ne (D : IsDomain ta d a b h g w) : w ≠ 0 :=
  root_ne_zero (by have := D.a_pos; omega) D.hw

theorem two_ne (D : IsDomain ta d a b h g w) : (2 : F) ≠ 0 := two_ne_zero_of_root D.a_pos D.hg

theorem lde_length (D : IsDomain ta d a b h g w) : d.ldeRootsOfUnityCoset.length = 2 ^ (a + b) := by
  rw [D.lde]; simp

theorem lde_getElem? (D : IsDomain ta d a b h g w) {i : Nat} (hi : i < 2 ^ (a + b)) :
    d.ldeRootsOfUnityCoset[i]? = some (w ^ i * h) := by
  rw [D.lde, List.getElem?_map, List.getElem?_range hi]; rfl

theorem g_pow_mod (D : IsDomain ta d a b h g w) (i : Nat) : g ^ (i % 2 ^ a) = g ^ i :=
  (pow_eq_pow_mod i D.g_primitive.pow_eq_one).symm

theorem w_pow_mod (D : IsDomain ta d a b h g w) (i : Nat) : w ^ (i % 2 ^ (a + b)) = w ^ i :=
  (pow_eq_pow_mod i D.w_primitive.pow_eq_one).symm

/-- A point is outside the trace domain exactly when it is not an `n`-th root of unity. -/
theorem notMem_trace_iff (D : IsDomain ta d a b h g w) (x : F) :
    x ∉ d.traceRootsOfUnity ↔ x ^ 2 ^ a ≠ 1 := by
  rw [D.traceRoots]
  constructor
  · intro hx h1
    have : NeZero (2 ^ a) := ⟨by positivity⟩
    obtain ⟨i, hi, rfl⟩ := D.g_primitive.eq_pow_of_pow_eq_one h1
    exact hx (List.mem_map.mpr ⟨i, List.mem_range.mpr hi, rfl⟩)
  · intro hx hm
    obtain ⟨i, -, rfl⟩ := List.mem_map.mp hm
    exact hx (by rw [← pow_mul, mul_comm, pow_mul, D.g_primitive.pow_eq_one, one_pow])

/-- A point outside the extended domain stays outside when multiplied by a power of the generator. -/
theorem mul_g_notMem_lde (D : IsDomain ta d a b h g w) {z : F} (hz : z ∉ d.ldeRootsOfUnityCoset)
    (i j : Nat) : w ^ i * h - z * g ^ j ≠ 0 := by
  intro hc
  apply hz
  rw [D.lde]
  have hg1 : g ^ j * g ^ ((2 ^ a - 1) * j) = 1 := by
    rw [← pow_add]
    have hp : 0 < 2 ^ a := by positivity
    rw [show j + (2 ^ a - 1) * j = 2 ^ a * j by
      rw [Nat.sub_one_mul]; have := Nat.le_mul_of_pos_left j hp; omega]
    rw [pow_mul, D.g_primitive.pow_eq_one, one_pow]
  have hzz : z = w ^ (i + 2 ^ b * ((2 ^ a - 1) * j)) * h := by
    have : z = z * (g ^ j * g ^ ((2 ^ a - 1) * j)) := by rw [hg1, mul_one]
    rw [this, ← mul_assoc, ← sub_eq_zero.mp hc, pow_add w, pow_mul w, D.w_pow]
    ring
  refine List.mem_map.mpr ⟨(i + 2 ^ b * ((2 ^ a - 1) * j)) % 2 ^ (a + b), List.mem_range.mpr
    (Nat.mod_lt _ (by positivity)), ?_⟩
  rw [D.w_pow_mod, hzz]

end IsDomain

/-! ## Sums in the outcome monad -/

theorem foldlM_sum {α : Type} {M : Type} [AddCommMonoid M] {f : M → α → Outcome Empty M} {g : α → M}
    (l : List α) (h : ∀ x ∈ l, ∀ acc, f acc x = .ok (acc + g x)) (acc : M) :
    l.foldlM f acc = .ok (acc + (l.map g).sum) := by
  induction l generalizing acc with
  | nil => simp
  | cons a t ih =>
    rw [List.foldlM_cons, h a (by simp)]
    refine (ih (fun x hx => h x (by simp [hx])) (acc + g a)).trans ?_
    simp [add_assoc]

theorem foldl_add_sum {α : Type} {M : Type} [AddCommMonoid M] (g : α → M) (l : List α) (acc : M) :
    (l.map g).foldl (· + ·) acc = acc + (l.map g).sum := by
  induction l generalizing acc with
  | nil => simp
  | cons a t ih => simp [ih, add_assoc]

theorem zip_range_map {α β γ : Type} (l : List α) (m : List β) (f : Nat × β → γ) (f' : α × β → γ)
    (h : ∀ j c y, l[j]? = some c → m[j]? = some y → f (j, y) = f' (c, y)) :
    ((List.range l.length).zip m).map f = (l.zip m).map f' := by
  refine List.ext_getElem (by simp) fun j h1 h2 => ?_
  simp only [List.getElem_map, List.getElem_zip, List.getElem_range]
  exact h j _ _ (List.getElem?_eq_getElem _) (List.getElem?_eq_getElem _)

/-! ## Exemptions -/

theorem foldl_mul_prod {α : Type} (l : List α) (f : α → F[X]) (acc : F[X]) :
    l.foldl (fun acc r => acc * f r) acc = acc * (l.map f).prod := by
  induction l generalizing acc with
  | nil => simp
  | cons a t ih => simp [ih, mul_assoc]

theorem list_prod_range {M : Type} [CommMonoid M] (f : Nat → M) (n : Nat) :
    ((List.range n).map f).prod = ∏ i ∈ Finset.range n, f i := by
  induction n with
  | zero => simp
  | succ n ih => simp [List.range_succ, Finset.prod_range_succ, ih]

/-- The polynomial of the exempted rows, from the last one down. -/
theorem exemption_range (g : F) (n e : Nat) (he : e ≤ n) :
    Spec.exemption g n e = ∏ i ∈ Finset.range e, (X - C (g ^ (n - 1 - i))) := by
  unfold Spec.exemption
  refine Finset.prod_nbij' (fun i => n - 1 - i) (fun i => n - 1 - i) ?_ ?_ ?_ ?_ ?_
  · intro i hi; simp at hi ⊢; omega
  · intro i hi; simp at hi ⊢; omega
  · intro i hi; simp at hi ⊢; omega
  · intro i hi; simp at hi ⊢; omega
  · intro i hi
    have : i < n := by simp at hi; omega
    simp only [show n - 1 - (n - 1 - i) = i by omega]

theorem exemption_zero (g : F) (n : Nat) : Spec.exemption g n 0 = 1 := by
  simp [Spec.exemption]

theorem exemption_degree (g : F) (n e : Nat) (he : e ≤ n) : (Spec.exemption g n e).natDegree = e := by
  unfold Spec.exemption
  rw [natDegree_prod_of_monic _ _ fun i _ => monic_X_sub_C _]
  simp only [natDegree_X_sub_C, Finset.sum_const, Nat.card_Ico, smul_eq_mul, mul_one]
  omega

theorem exemption_monic (g : F) (n e : Nat) : (Spec.exemption g n e).Monic :=
  monic_prod_of_monic _ _ fun i _ => monic_X_sub_C _

theorem exemption_eval (g : F) (n e : Nat) (x : F) :
    (Spec.exemption g n e).eval x = 0 ↔ ∃ i, n - e ≤ i ∧ i < n ∧ x = g ^ i := by
  unfold Spec.exemption
  rw [eval_prod, Finset.prod_eq_zero_iff]
  simp [sub_eq_zero, and_assoc]

/-- The exemption polynomials of the prover. -/
theorem transitionExemptions_eq {ta : TwoAdic F} {air : Air F Ch} {a : Nat} {g : F}
    (ha : a < 64) (hn : air.traceLength = 2 ^ a) (hg : ta.root a = some g) :
    transitionExemptions ta air = .ok (((unique air.context.transitionExemptions).filter (0 < ·)).map
      fun e => Spec.exemption g (2 ^ a) (min e (2 ^ a))) := by
  unfold transitionExemptions
  rw [hn, trailingZeros_pow ha, powersCoset_ok.mpr ⟨g, hg, rfl⟩]
  simp only [Outcome.bind_ok, Outcome.pure_eq, Outcome.ok.injEq]
  refine List.map_congr_left fun e _ => ?_
  rw [foldl_mul_prod, one_mul, exemption_range g _ _ (min_le_right _ _), ← list_prod_range]
  congr 1
  refine List.ext_getElem? fun i => ?_
  simp only [List.length_map, List.length_range, List.getElem?_map, mul_one]
  by_cases hi : i < min e (2 ^ a)
  · have h1 : i < e := lt_of_lt_of_le hi (min_le_left _ _)
    have h2 : i < 2 ^ a := lt_of_lt_of_le hi (min_le_right _ _)
    rw [List.getElem?_take_of_lt h1, List.getElem?_reverse (by simpa using h2),
      List.getElem?_take_of_lt (by simp; omega), List.getElem?_map, List.getElem?_range hi]
    simp only [List.length_take, List.length_map, List.length_range, min_self]
    rw [List.getElem?_range (by omega)]
    rfl
  · rw [List.getElem?_eq_none (by simp; omega), List.getElem?_eq_none (by simp; omega)]
    rfl

theorem unique_filter {α : Type} [DecidableEq α] (p : α → Bool) (l : List α) :
    (unique l).filter p = unique (l.filter p) := by
  unfold unique
  have key : ∀ (l acc : List α),
      (l.foldl (fun acc x => if x ∈ acc then acc else acc ++ [x]) acc).filter p
        = (l.filter p).foldl (fun acc x => if x ∈ acc then acc else acc ++ [x]) (acc.filter p) := by
    intro l
    induction l with
    | nil => intro acc; rfl
    | cons x t ih =>
      intro acc
      rw [List.foldl_cons, ih]
      by_cases hp : p x = true
      · rw [List.filter_cons_of_pos hp, List.foldl_cons]
        congr 1
        by_cases hx : x ∈ acc
        · have : x ∈ acc.filter p := List.mem_filter.mpr ⟨hx, hp⟩
          rw [if_pos hx, if_pos this]
        · have : x ∉ acc.filter p := fun h => hx (List.mem_filter.mp h).1
          rw [if_neg hx, if_neg this, List.filter_append]
          simp [hp]
      · rw [List.filter_cons_of_neg hp]
        congr 1
        split
        · rfl
        · rw [List.filter_append]
          simp [hp]
  exact key l []

theorem mem_unique {α : Type} [DecidableEq α] (l : List α) (x : α) : x ∈ unique l ↔ x ∈ l := by
  unfold unique
  have key : ∀ (l acc : List α),
      x ∈ l.foldl (fun acc x => if x ∈ acc then acc else acc ++ [x]) acc ↔ x ∈ acc ∨ x ∈ l := by
    intro l
    induction l with
    | nil => simp
    | cons y t ih =>
      intro acc
      rw [List.foldl_cons, ih]
      split
      · rename_i hy
        constructor
        · rintro (h | h)
          · exact .inl h
          · exact .inr (by simp [h])
        · rintro (h | h)
          · exact .inl h
          · rcases List.mem_cons.mp h with rfl | h
            · exact .inl hy
            · exact .inr h
      · simp only [List.mem_append, List.mem_singleton, List.mem_cons]
        tauto
  simpa using key l []

/-- The exemption polynomials of the verifier. -/
theorem transitionExemptionsVerifier_eq {air : Air F Ch} {n m : Nat} {g : F}
    (hg : g ^ n = 1) (hn : 0 < n)
    (hm : air.context.transitionExemptions.max? = some m) :
    ∃ l, transitionExemptionsVerifier air (g ^ (n - 1)) = .ok l ∧ l.length = m ∧
      ∀ i, i < m → i < n → l[i]? = some (Spec.exemption g n (i + 1)) := by
  unfold transitionExemptionsVerifier
  rw [hm]
  refine ⟨_, rfl, by simp, fun i hi hin => ?_⟩
  rw [List.getElem?_map, List.getElem?_range hi, Option.map_some, foldl_mul_prod, one_mul,
    list_prod_range, exemption_range g _ _ (by omega)]
  congr 1
  refine Finset.prod_congr rfl fun k hk => ?_
  have hk : k < i + 1 := by simpa using hk
  have h0 : (g ^ (n - 1)) ^ (k + 1) = g ^ (n - 1 - k) := by
    rw [← pow_mul, show (n - 1) * (k + 1) = n * k + (n - 1 - k) by
      obtain ⟨m, rfl⟩ : ∃ m, n = m + 1 + k := ⟨n - 1 - k, by omega⟩
      simp only [show m + 1 + k - 1 = m + k by omega, show m + k - k = m by omega]
      ring, pow_add, pow_mul, hg, one_pow, one_mul]
  rw [h0]

end Verif
