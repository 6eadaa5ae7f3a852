import Verif.Lemmas.Parallel
import Verif.Lemmas.TwoAdic
import Verif.Lemmas.Complete
import Verif.Model.ExampleAirs

/-!
# C96: domains, trace polynomials and their extensions
-/

namespace Verif.Props
open Polynomial TraceTable ExampleAirs
variable {F Ch : Type} [Field F]

/-- **C96**, domains: for `2^a` rows and a blowup factor `2^b`, the domain of an AIR is built exactly when its size
fits the machine word and the field has a root of unity of that order. Its trace points are then the `2^a` powers of
an element of that order, its extended points are the `2^(a+b)` powers of an element of that order times the offset,
and the first element is the `2^b`-th power of the second. -/
theorem C96_domain {ta : TwoAdic F} {air : Air F Ch} {a b : Nat} (ha : 1 ≤ a) (hn : air.traceLength = 2 ^ a)
    (hb : air.context.proofOptions.blowupFactor.toNat = 2 ^ b) :
    (a + b < 64 ∧ a + b ≤ ta.adicity → ∃ d g w, Domain.new ta air = .ok d ∧ IsPrimitiveRoot g (2 ^ a) ∧
      IsPrimitiveRoot w (2 ^ (a + b)) ∧ w ^ 2 ^ b = g ∧ d.tracePrimitiveRoot = g ∧
      d.traceRootsOfUnity = (List.range (2 ^ a)).map (g ^ ·) ∧
      d.ldeRootsOfUnityCoset
        = (List.range (2 ^ (a + b))).map (fun i => w ^ i * (air.context.proofOptions.cosetOffset : F)) ∧
      d.cosetOffset = air.context.proofOptions.cosetOffset ∧ d.blowupFactor = 2 ^ b ∧
      d.interpolationDomainSize = 2 ^ a ∧ d.rootOrder = a ∧ d.ldeRootOrder = a + b) ∧
    (¬ (a + b < 64 ∧ a + b ≤ ta.adicity) → Domain.new ta air = .panic) := by
  constructor
  · rintro ⟨hab, had⟩
    obtain ⟨d, hd⟩ := domain_exists ha hn hb hab had
    obtain ⟨g, w, D⟩ := domain_new ha hn hb hd
    exact ⟨d, g, w, hd, ta.primitive a g ha D.hg, ta.primitive _ w (by omega) D.hw, D.w_pow, D.tracePrimitiveRoot,
      D.traceRoots, D.lde, D.cosetOffset, D.blowup, D.size, D.rootOrder, D.ldeRootOrder⟩
  · intro h
    rcases (Domain.new ta air).ok_or_panic with ⟨d, hd⟩ | hp
    · obtain ⟨g, w, D⟩ := domain_new ha hn hb hd
      exact absurd ⟨D.small, root_le_adicity D.hw⟩ h
    · exact hp

variable [DecidableEq F]

/-- **C96**, extension: on the domain of an AIR, `evaluate_polynomial_on_lde_domain` returns the values of the
polynomial at the extended points, in their order. This holds for every degree, also for polynomials with more
coefficients than there are rows, provided the field has roots of unity for the larger transform; otherwise the call
fails. `m` is the least number that is at least `a` and such that `2^m` is more than the degree. -/
theorem C96_extension {ta : TwoAdic F} {air : Air F Ch} {d : Domain F} {a b m : Nat} (ha : 1 ≤ a)
    (hn : air.traceLength = 2 ^ a) (hb : air.context.proofOptions.blowupFactor.toNat = 2 ^ b)
    (hd : Domain.new ta air = .ok d) (p : F[X]) (ham : a ≤ m) (hp : p.degree < (2 ^ m : Nat))
    (hleast : ∀ k, a ≤ k → p.degree < (2 ^ k : Nat) → m ≤ k) (hmb : m + b < 64) :
    (m + b ≤ ta.adicity → evaluateOnLde ta p d.blowupFactor d.interpolationDomainSize d.cosetOffset
      = .ok (d.ldeRootsOfUnityCoset.map p.eval)) ∧
    (ta.adicity < m + b → evaluateOnLde ta p d.blowupFactor d.interpolationDomainSize d.cosetOffset = .panic) := by
  obtain ⟨g, w, D⟩ := domain_new ha hn hb hd
  rw [D.blowup, D.size, D.cosetOffset]
  constructor
  · intro had
    rw [evaluateOnLde_large (by omega) ham hp hmb had D.hw, D.lde, List.map_map]
    rfl
  · intro had
    have hclog : Nat.clog 2 (max (coefficients p).length (2 ^ a)) = m := by
      apply le_antisymm
      · refine Nat.clog_le_of_le_pow (max_le ((coefficients_length_le p _).mpr hp) ?_)
        exact Nat.pow_le_pow_right (by norm_num) ham
      · have hle := Nat.le_pow_clog (by norm_num : 1 < 2) (max (coefficients p).length (2 ^ a))
        refine hleast _ ?_ ((coefficients_length_le p _).mp (le_trans (le_max_left _ _) hle))
        exact (Nat.pow_le_pow_iff_right (by norm_num)).1 (le_trans (le_max_right _ _) hle)
    unfold evaluateOnLde evaluateOffsetFft nextPowerOfTwo TwoAdic.getRoot
    simp only [hclog]
    rw [← pow_add, Nat.log_pow (by norm_num : 1 < 2), trailingZeros_pow hmb, ta.undefined _ had]
    simp only [ne_eq, not_true_eq_false, if_false]
    rfl

/-- **C96**, extension, refused parameters: a number of rows that is zero, or a blowup factor that is not a power of
two, makes the extension of every polynomial fail. -/
theorem C96_extension_refused (ta : TwoAdic F) (p : F[X]) (blowup size : Nat) (offset : F)
    (h : size = 0 ∨ ∀ b, blowup ≠ 2 ^ b) : evaluateOnLde ta p blowup size offset = .panic := by
  rcases (evaluateOnLde ta p blowup size offset).ok_or_panic with ⟨l, hl⟩ | hp
  · exfalso
    unfold evaluateOnLde at hl
    rw [Outcome.bind_eq_ok] at hl
    obtain ⟨vals, hv, hl⟩ := hl
    rcases h with rfl | h
    · rw [Nat.zero_mul, if_pos rfl] at hl
      cases hl
    · unfold evaluateOffsetFft at hv
      simp only at hv
      split at hv
      · cases hv
      · rename_i hp
        have hdvd : blowup ∣ 2 ^ Nat.log 2 (nextPowerOfTwo (max (coefficients p).length size) * blowup) :=
          ⟨_, (not_not.1 hp).symm.trans (Nat.mul_comm _ _)⟩
        obtain ⟨b, -, hb⟩ := (Nat.dvd_prime_pow Nat.prime_two).1 hdvd
        exact h b hb
  · exact hp

/-- The columns of a table that is given by its rows. -/
theorem cols_ofRows (rows : List (List F)) (k : Nat) (hk : 0 < k) (hrect : ∀ r ∈ rows, r.length = k) :
    (ofRows rows k).cols = .ok ((List.range k).map fun j => rows.map (·.getD j 0)) := by
  unfold TraceTable.cols
  rw [nRows_ofRows rows k hk hrect]
  refine mapOutcome_range (by simp [ofRows]) fun j hj => ?_
  have hjk : j < k := by simpa [ofRows] using hj
  simp only [List.getElem_map, List.getElem_range]
  refine mapOutcome_range (by simp) fun i hi => ?_
  rw [index_eq_ok]
  have hi' : i < rows.length := by simpa using hi
  show rows.flatten[i * k + j]? = _
  rw [flatten_getElem? rows k hrect i j hi' hjk]
  have hl := hrect _ (List.getElem_mem hi')
  simp [List.getElem?_eq_getElem (hl.symm ▸ hjk : j < rows[i].length)]

/-- **C96**, trace polynomials: for a table of `2^a` rows there is one polynomial per column, of degree less than the
number of rows, and its values at the powers of an element of order `2^a` are the entries of the column; they are the
only such polynomials. When the number of rows is not a power of two, or there is no root of unity of that order, the
call fails. -/
theorem C96_trace_polys {ta : TwoAdic F} (rows : List (List F)) (k : Nat) (hk : 0 < k)
    (hrect : ∀ r ∈ rows, r.length = k) :
    (∀ a, 1 ≤ a → a < 64 → a ≤ ta.adicity → rows.length = 2 ^ a → ∃ polys g,
      computeTracePolys ta (ofRows rows k) = .ok polys ∧ ta.root a = some g ∧ polys.length = k ∧
      ∀ (j : Nat) p, polys[j]? = some p ↔ j < k ∧ p.degree < (2 ^ a : Nat) ∧
        ∀ i r, rows[i]? = some r → r[j]? = some (p.eval (g ^ i))) ∧
    ((∀ a, rows.length ≠ 2 ^ a) ∨ (∃ a < 64, rows.length = 2 ^ a ∧ ta.adicity < a) →
      computeTracePolys ta (ofRows rows k) = .panic) := by
  have hcols := cols_ofRows rows k hk hrect
  constructor
  · intro a ha ha64 had hn
    obtain ⟨g, hg⟩ := Option.isSome_iff_exists.mp (ta.defined a ha had)
    have hint : ∀ c ∈ (List.range k).map fun j => rows.map (·.getD j 0), ∃ q : F[X],
        interpolateOffsetFft ta c 1 = .ok q ∧ q.degree < (2 ^ a : Nat) ∧
          ∀ i < 2 ^ a, q.eval (g ^ i * 1) = c.getD i 0 := by
      intro c hc
      obtain ⟨j, -, rfl⟩ := List.mem_map.1 hc
      exact interpolateOffsetFft_ok ha ha64 hg one_ne_zero _ (by simpa using hn)
    obtain ⟨polys, hpolys⟩ := mapOutcome_exists fun c hc => (hint c hc).imp fun q hq => hq.1
    obtain ⟨hl, hpe⟩ := mapOutcome_mem hpolys
    have hlk : polys.length = k := by simpa using hl
    have hprop : ∀ (j : Nat) (hj : j < polys.length), (polys[j]).degree < (2 ^ a : Nat) ∧
        ∀ i r, rows[i]? = some r → r[j]? = some ((polys[j]).eval (g ^ i)) := by
      intro j hj
      have hjk : j < k := hlk ▸ hj
      obtain ⟨q, hq1, hq2, hq3⟩ := hint (((List.range k).map fun j => rows.map (·.getD j 0))[j]'(by omega))
        (List.getElem_mem _)
      rw [hpe j (by omega) hj] at hq1
      obtain rfl := Outcome.ok.inj hq1
      refine ⟨hq2, fun i r hr => ?_⟩
      obtain ⟨hi, hri⟩ := List.getElem?_eq_some_iff.1 hr
      have := hq3 i (hn ▸ hi)
      rw [mul_one] at this
      rw [this]
      have hrl : r.length = k := hrect r (hri ▸ List.getElem_mem hi)
      simp [hi, hri, List.getElem?_eq_getElem (hrl ▸ hjk : j < r.length)]
    refine ⟨polys, g, ?_, hg, hlk, fun j p => ⟨fun hj => ?_, fun ⟨hjk, hdeg, hval⟩ => ?_⟩⟩
    · unfold computeTracePolys
      rw [hcols, Outcome.bind_ok, hpolys]
    · obtain ⟨hj', rfl⟩ := List.getElem?_eq_some_iff.1 hj
      exact ⟨hlk ▸ hj', hprop j hj'⟩
    · have hj : j < polys.length := hlk ▸ hjk
      obtain ⟨hd2, hv2⟩ := hprop j hj
      rw [List.getElem?_eq_getElem hj]
      refine congrArg some (Polynomial.eq_of_degrees_lt_of_eval_index_eq (s := Finset.range (2 ^ a))
        (v := fun i => g ^ i * 1) (coset_injOn ha hg one_ne_zero) (by simpa using hd2) (by simpa using hdeg)
        fun i hi => ?_)
      have hi : i < rows.length := by rw [hn]; simpa using hi
      have h1 := hv2 i _ (List.getElem?_eq_getElem hi)
      have h2 := hval i _ (List.getElem?_eq_getElem hi)
      rw [mul_one]
      exact Option.some.inj (h1.symm.trans h2)
  · intro h
    unfold computeTracePolys
    rw [hcols, Outcome.bind_ok]
    refine mapOutcome_panic (i := 0) (a := rows.map (·.getD 0 0)) (by simp [hk]) ?_
    unfold interpolateOffsetFft
    rw [List.length_map]
    rcases h with h | ⟨a, ha64, hn, had⟩
    · rw [if_pos (h _)]
    · rw [hn, Nat.log_pow (by norm_num : 1 < 2)]
      unfold TwoAdic.getRoot
      rw [trailingZeros_pow ha64, ta.undefined a had]
      simp only [ne_eq, not_true_eq_false, if_false]
      rfl

/-- The field with 17 elements, four rows and a blowup factor of two. The domain is built, the polynomial `X^4`, which
has more coefficients than there are rows, is extended to the eight points, and the extension of `X^8` fails, since
the field has no root of unity of order 32. For 16 rows there is no domain. -/
example : ∃ (air air' : Air (ZMod 17) Unit) (d : Domain (ZMod 17)),
    fibonacci2 4 (⟨1, 1⟩ : FibonacciPublicInputs (ZMod 17)) ⟨2, 3, 3, 0⟩ = .ok air ∧
    Domain.new roots17 air = .ok d ∧ d.ldeRootsOfUnityCoset.length = 8 ∧
    evaluateOnLde roots17 (X ^ 4) d.blowupFactor d.interpolationDomainSize d.cosetOffset
      = .ok (d.ldeRootsOfUnityCoset.map (X ^ 4 : (ZMod 17)[X]).eval) ∧
    evaluateOnLde roots17 (X ^ 8) d.blowupFactor d.interpolationDomainSize d.cosetOffset = .panic ∧
    fibonacci2 16 (⟨1, 1⟩ : FibonacciPublicInputs (ZMod 17)) ⟨2, 3, 3, 0⟩ = .ok air' ∧
    Domain.new roots17 air' = .panic := by
  have had : roots17.adicity = 4 := rfl
  obtain ⟨air, hair, hn, hb⟩ : ∃ air : Air (ZMod 17) Unit,
      fibonacci2 4 (⟨1, 1⟩ : FibonacciPublicInputs (ZMod 17)) ⟨2, 3, 3, 0⟩ = .ok air ∧ air.traceLength = 2 ^ 2 ∧
      air.context.proofOptions.blowupFactor.toNat = 2 ^ 1 := ⟨_, rfl, rfl, rfl⟩
  obtain ⟨d, g, w, hd, -, -, -, -, -, hl, -⟩ := (C96_domain (ta := roots17) (a := 2) (b := 1)
    (air := air) (by decide) hn hb).1
    ⟨by decide, by decide⟩
  have hdeg : ∀ (n k : Nat), (X ^ n : (ZMod 17)[X]).degree < (2 ^ k : Nat) ↔ n < 2 ^ k := by
    intro n k
    rw [degree_X_pow]
    exact Nat.cast_lt
  refine ⟨air, _, d, hair, hd, by rw [hl]; simp, ?_, ?_, rfl, ?_⟩
  · refine (C96_extension (a := 2) (b := 1) (m := 3) (by decide) hn hb hd _ (by decide) ((hdeg 4 3).2 (by decide)) ?_
      (by decide)).1 (by decide)
    intro k _ hk
    by_contra hc
    have : 2 ^ k ≤ 2 ^ 2 := Nat.pow_le_pow_right (by decide) (by omega)
    have := (hdeg 4 k).1 hk
    omega
  · refine (C96_extension (a := 2) (b := 1) (m := 4) (by decide) hn hb hd _ (by decide) ((hdeg 8 4).2 (by decide)) ?_
      (by decide)).2 (by decide)
    intro k _ hk
    by_contra hc
    have : 2 ^ k ≤ 2 ^ 3 := Nat.pow_le_pow_right (by decide) (by omega)
    have := (hdeg 8 k).1 hk
    omega
  · exact (C96_domain (a := 4) (b := 1) (by decide) rfl rfl).2 (by rw [had]; decide)

/-- A blowup factor of three, or no rows. -/
example : evaluateOnLde roots17 (X + 1) 3 4 3 = .panic ∧ evaluateOnLde roots17 (X + 1) 2 0 3 = .panic :=
  ⟨C96_extension_refused _ _ _ _ _ (Or.inr fun b h => by
    have hd : (2 : Nat) ∣ 2 ^ b ∨ b = 0 := by
      cases b with
      | zero => exact Or.inr rfl
      | succ b => exact Or.inl ⟨2 ^ b, by rw [pow_succ']⟩
    rcases hd with hd | rfl
    · omega
    · omega), C96_extension_refused _ _ _ _ _ (Or.inl rfl)⟩

/-- A table of four rows over the field with 17 elements has trace polynomials, one of three rows has none, and
neither has one of 32 rows. -/
example : (∃ polys, computeTracePolys roots17 (ofRows [[1, 1], [2, 3], [5, 8], [13, 4]] 2) = .ok polys ∧
      polys.length = 2) ∧
    computeTracePolys roots17 (ofRows [[1, 1], [2, 3], [5, 8]] 2) = .panic ∧
    computeTracePolys roots17 (ofRows (List.replicate 32 [1, 1]) 2) = .panic := by
  refine ⟨?_, ?_, ?_⟩
  · obtain ⟨polys, g, h1, -, h2, -⟩ := (C96_trace_polys (ta := roots17)
      [[1, 1], [2, 3], [5, 8], [13, 4]] 2 (by decide) (by decide)).1 2 (by decide) (by decide) (by decide) rfl
    exact ⟨polys, h1, h2⟩
  · refine (C96_trace_polys _ 2 (by decide) (by decide)).2 (Or.inl fun b h => ?_)
    have h : 3 = 2 ^ b := h
    cases b with
    | zero => omega
    | succ b => rw [pow_succ'] at h; omega
  · exact (C96_trace_polys _ 2 (by decide) (by simp)).2 (Or.inr ⟨5, by decide, by simp, by decide⟩)

end Verif.Props
