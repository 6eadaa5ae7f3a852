import Mathlib.Data.List.Perm.Basic

/-!
# Hash maps

`std::collections::HashMap` (external) is modelled by the list of its entries in iteration order.
The iteration order of a Rust hash map is unspecified; theorems about iteration quantify over every
entry list, and equality of maps is equality of all lookups (`HMap.Same`).
-/

namespace Verif

/-- Entries of a hash map, in iteration order. See src/cairo/air.rs:162, 181. -/
abbrev HMap (K V : Type) := List (K × V)

namespace HMap
variable {K V : Type} [DecidableEq K]

/-- `HashMap::get`. Used at src/cairo/cairo_mem.rs:23. -/
def get? (m : HMap K V) (k : K) : Option V :=
  match m with
  | [] => none
  | (k', v) :: m => if k' = k then some v else get? m k

/-- `HashMap::insert`: replaces the value of an existing key, otherwise adds an entry.
Used at src/cairo/air.rs:400. -/
def insert (m : HMap K V) (k : K) (v : V) : HMap K V :=
  match m with
  | [] => [(k, v)]
  | (k', v') :: m => if k' = k then (k, v) :: m else (k', v') :: insert m k v

/-- No key occurs twice: what makes an entry list a map. See src/cairo/air.rs:162, 181. -/
def WF (m : HMap K V) : Prop := (m.map Prod.fst).Nodup

/-- Two maps with the same content. See src/cairo/air.rs:181. -/
def Same (m m' : HMap K V) : Prop := ∀ k, m.get? k = m'.get? k

theorem get?_insert (m : HMap K V) (k k' : K) (v : V) :
    (m.insert k v).get? k' = if k = k' then some v else m.get? k' := by
  induction m with
  | nil => simp [insert, get?]
  | cons e m ih =>
    obtain ⟨a, b⟩ := e
    simp only [insert]
    split
    next h => subst h; simp only [get?]; split <;> rfl
    next h =>
      simp only [get?, ih]
      by_cases h1 : a = k'
      · subst h1; simp [Ne.symm h]
      · simp [h1]

theorem insert_of_not_mem (m : HMap K V) (k : K) (v : V) (h : k ∉ m.map Prod.fst) :
    m.insert k v = m ++ [(k, v)] := by
  induction m with
  | nil => rfl
  | cons e m ih =>
    obtain ⟨a, b⟩ := e
    simp only [List.map_cons, List.mem_cons, not_or] at h
    simp [insert, Ne.symm h.1, ih h.2]

theorem get?_eq_some_of_mem {m : HMap K V} (hm : m.WF) {k : K} {v : V} (h : (k, v) ∈ m) :
    m.get? k = some v := by
  induction m with
  | nil => simp at h
  | cons e m ih =>
    obtain ⟨a, b⟩ := e
    simp only [WF, List.map_cons, List.nodup_cons] at hm
    rcases List.mem_cons.1 h with h | h
    · cases h; simp [get?]
    · have : a ≠ k := by
        rintro rfl
        exact hm.1 (List.mem_map.2 ⟨_, h, rfl⟩)
      simp [get?, this, ih hm.2 h]

theorem mem_of_get?_eq_some {m : HMap K V} {k : K} {v : V} (h : m.get? k = some v) :
    (k, v) ∈ m := by
  induction m with
  | nil => simp [get?] at h
  | cons e m ih =>
    obtain ⟨a, b⟩ := e
    simp only [get?] at h
    split at h
    next h1 => cases h; subst h1; simp
    next => exact List.mem_cons_of_mem _ (ih h)

theorem mem_iff_get? {m : HMap K V} (hm : m.WF) {k : K} {v : V} :
    (k, v) ∈ m ↔ m.get? k = some v :=
  ⟨get?_eq_some_of_mem hm, mem_of_get?_eq_some⟩

theorem get?_eq_none_iff {m : HMap K V} {k : K} : m.get? k = none ↔ k ∉ m.map Prod.fst := by
  induction m with
  | nil => simp [get?]
  | cons e m ih =>
    obtain ⟨a, b⟩ := e
    simp only [get?, List.map_cons, List.mem_cons, not_or]
    split
    next h => subst h; simp
    next h => rw [ih]; exact ⟨fun h' => ⟨fun h'' => h h''.symm, h'⟩, fun h' => h'.2⟩

theorem keys_insert (m : HMap K V) (k : K) (v : V) :
    (m.insert k v).map Prod.fst = if k ∈ m.map Prod.fst then m.map Prod.fst else m.map Prod.fst ++ [k] := by
  induction m with
  | nil => simp [insert]
  | cons e m ih =>
    obtain ⟨a, b⟩ := e
    simp only [insert]
    split
    next h => subst h; simp
    next h =>
      simp only [List.map_cons, ih, List.mem_cons]
      by_cases hm : k ∈ m.map Prod.fst
      · simp only [hm, if_true, or_true]
      · simp [hm, Ne.symm h]

theorem WF.insert {m : HMap K V} (hm : m.WF) (k : K) (v : V) : (m.insert k v).WF := by
  unfold WF at *
  rw [keys_insert]
  split
  · exact hm
  next h =>
    rw [List.nodup_append]
    refine ⟨hm, by simp, ?_⟩
    intro a ha b hb
    simp at hb; subst hb
    rintro rfl; exact h ha

/-- Inserting the entries of a list into a map with disjoint keys appends them. -/
theorem foldl_insert_append (l m : HMap K V) (h : (m ++ l).WF) :
    l.foldl (fun acc e => acc.insert e.1 e.2) m = m ++ l := by
  induction l generalizing m with
  | nil => simp
  | cons e l ih =>
    have hd : e.1 ∉ m.map Prod.fst := by
      simp only [WF, List.map_append, List.map_cons, List.nodup_append] at h
      intro hc
      exact h.2.2 _ hc _ (by simp) rfl
    rw [List.foldl_cons, insert_of_not_mem m e.1 e.2 hd]
    have : m ++ [(e.1, e.2)] ++ l = m ++ e :: l := by simp
    rw [ih _ (by rw [this]; exact h), this]

theorem WF.foldl_insert (l m : HMap K V) (h : m.WF) :
    (l.foldl (fun acc e => acc.insert e.1 e.2) m).WF := by
  induction l generalizing m with
  | nil => exact h
  | cons e l ih => exact ih _ (h.insert _ _)

end HMap
end Verif
