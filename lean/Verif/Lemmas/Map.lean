import Verif.Model.Map
import Mathlib.Tactic.Linarith
import Mathlib.Data.List.Nodup
import Mathlib.Data.List.Range
import Mathlib.Data.List.Perm.Subperm

/-! Invariant of the open-addressing table and its preservation. -/
namespace Verif.Map
variable {K V : Type}

/-- Key comparison is an equivalence and equal keys hash alike. -/
structure Lawful (ops : KeyOps K) : Prop where
  refl : ∀ a, ops.eq a a = true
  symm : ∀ a b, ops.eq a b = true → ops.eq b a = true
  trans : ∀ a b c, ops.eq a b = true → ops.eq b c = true → ops.eq a c = true
  hash : ∀ a b, ops.eq a b = true → ops.hash a = ops.hash b

/-- The slot the `e`-th probe of key `k` looks at. -/
def path (ops : KeyOps K) (k : K) (cap e : Nat) : Nat := (home ops k cap + e) % cap

structure Inv (ops : KeyOps K) (m : GrayMap K V) : Prop where
  cap : 8 ≤ m.capacity
  nodup : m.order.Nodup
  order : ∀ s, s ∈ m.order ↔ ∃ k v, m.slots[s]? = some (Slot.full k v)
  count : m.count = m.order.length
  load : 4 * m.count ≤ 3 * m.capacity + 3
  distinct : ∀ (i j : Nat) (k k' : K) (v v' : V), m.slots[i]? = some (Slot.full k v) → m.slots[j]? = some (Slot.full k' v') →
    ops.eq k k' = true → i = j
  reach : ∀ (i : Nat) (k : K) (v : V), m.slots[i]? = some (Slot.full k v) →
    ∃ d, d < m.capacity ∧ path ops k m.capacity d = i ∧
      ∀ e, e < d → m.slots[path ops k m.capacity e]? ≠ some Slot.empty

/-- A slot holds a key equal to `k`. -/
def Matches (ops : KeyOps K) (m : GrayMap K V) (k : K) (p : Nat) : Prop :=
  ∃ k' v, m.slots[p]? = some (Slot.full k' v) ∧ ops.eq k' k = true

/-- Entries in iteration order, without the access checks. -/
def entAt (slots : List (Slot K V)) (s : Nat) : Option (K × V) :=
  match slots[s]? with
  | some (Slot.full k v) => some (k, v)
  | _ => none

def ents (m : GrayMap K V) : List (K × V) := m.order.filterMap (entAt m.slots)

theorem entAt_full {slots : List (Slot K V)} {s : Nat} {k : K} {v : V}
    (h : slots[s]? = some (Slot.full k v)) : entAt slots s = some (k, v) := by
  simp [entAt, h]

theorem home_lt (ops : KeyOps K) (k : K) {cap : Nat} (h : 0 < cap) : home ops k cap < cap :=
  Nat.mod_lt _ h

theorem path_lt (ops : KeyOps K) (k : K) {cap : Nat} (h : 0 < cap) (e : Nat) :
    path ops k cap e < cap := Nat.mod_lt _ h

theorem probe_ok (ops : KeyOps K) (k : K) {cap i : Nat} (h : cap * 3 ≤ int32Max) (hi : i < cap) :
    probe (home ops k cap) i cap = .ok (path ops k cap i) := by
  have h1 := home_lt ops k (cap := cap) (by omega)
  have h2 : int32Max = 2147483647 := rfl
  unfold probe path
  rw [if_pos (by omega)]

theorem path_eq {ops : KeyOps K} (L : Lawful ops) {a b : K} (h : ops.eq a b = true) (cap e : Nat) :
    path ops a cap e = path ops b cap e := by
  simp [path, home, L.hash a b h]

theorem findLoop_spec (ops : KeyOps K) (m : GrayMap K V) (k : K) (h3 : m.capacity * 3 ≤ int32Max) :
    ∀ n i, i + n = m.capacity → (∀ e, e < i → ¬ Matches ops m k (path ops k m.capacity e)) →
    (∃ p, findLoop ops m k (home ops k m.capacity) n i = .ok (some p) ∧ Matches ops m k p) ∨
    (findLoop ops m k (home ops k m.capacity) n i = .ok none ∧
      ((∀ e, e < m.capacity → ¬ Matches ops m k (path ops k m.capacity e)) ∨
       ∃ d, m.slots[path ops k m.capacity d]? = some Slot.empty ∧
        ∀ e, e < d → ¬ Matches ops m k (path ops k m.capacity e))) := by
  intro n
  induction n with
  | zero =>
    intro i hi hno
    refine Or.inr ⟨by simp [findLoop], Or.inl fun e he => hno e (by omega)⟩
  | succ n ih =>
    intro i hi hno
    have hp := probe_ok ops k (i := i) h3 (by omega)
    have hlt : path ops k m.capacity i < m.slots.length :=
      path_lt ops k (cap := m.capacity) (by omega) i
    have hget := List.getElem?_eq_getElem hlt
    unfold findLoop
    rw [hp]
    simp only []
    cases hs : m.slots[path ops k m.capacity i]? with
    | none => rw [hget] at hs; exact absurd hs (by simp)
    | some s =>
      cases s with
      | empty => exact Or.inr ⟨rfl, Or.inr ⟨i, hs, hno⟩⟩
      | tomb =>
        apply ih (i + 1) (by omega)
        intro e he
        rcases Nat.lt_succ_iff_lt_or_eq.1 he with h | h
        · exact hno e h
        · subst h; rintro ⟨k', v, hm, _⟩; rw [hs] at hm; simp at hm
      | full k' v =>
        simp only []
        by_cases hk : ops.eq k' k = true
        · rw [if_pos hk]
          exact Or.inl ⟨_, rfl, k', v, hs, hk⟩
        · rw [if_neg hk]
          apply ih (i + 1) (by omega)
          intro e he
          rcases Nat.lt_succ_iff_lt_or_eq.1 he with h | h
          · exact hno e h
          · subst h; rintro ⟨k2, v2, hm, hk2⟩; rw [hs] at hm
            simp only [Option.some.injEq, Slot.full.injEq] at hm
            rw [← hm.1] at hk2; exact hk hk2

theorem no_match_of_path {ops : KeyOps K} (L : Lawful ops) {m : GrayMap K V} (I : Inv ops m) {k : K}
    (h : (∀ e, e < m.capacity → ¬ Matches ops m k (path ops k m.capacity e)) ∨
       ∃ d, m.slots[path ops k m.capacity d]? = some Slot.empty ∧
        ∀ e, e < d → ¬ Matches ops m k (path ops k m.capacity e)) (p : Nat) :
    ¬ Matches ops m k p := by
  rintro ⟨k', v, hs, hk⟩
  obtain ⟨d, hd, hp, hne⟩ := I.reach p k' v hs
  have hpe : ∀ e, path ops k' m.capacity e = path ops k m.capacity e := path_eq L hk _
  rw [hpe] at hp
  rcases h with h | ⟨d', hd', h⟩
  · exact h d hd (hp ▸ ⟨k', v, hs, hk⟩)
  · rcases Nat.lt_trichotomy d d' with hlt | heq | hgt
    · exact h d hlt (hp ▸ ⟨k', v, hs, hk⟩)
    · subst heq; rw [hp, hs] at hd'; simp at hd'
    · have := hne d' hgt; rw [hpe] at this; exact this hd'

theorem findSlot_spec {ops : KeyOps K} (L : Lawful ops) {m : GrayMap K V} (I : Inv ops m)
    (h3 : m.capacity * 3 ≤ int32Max) (k : K) :
    (∃ p, findSlot ops m k = .ok (some p) ∧ Matches ops m k p) ∨
    (findSlot ops m k = .ok none ∧ ∀ p, ¬ Matches ops m k p) := by
  rcases findLoop_spec ops m k h3 m.capacity 0 (by omega) (by simp) with h | ⟨h, h'⟩
  · exact Or.inl h
  · exact Or.inr ⟨h, no_match_of_path L I h'⟩

theorem path_surj (ops : KeyOps K) (k : K) {cap j : Nat} (hj : j < cap) :
    ∃ e, e < cap ∧ path ops k cap e = j := by
  have hh := home_lt ops k (cap := cap) (by omega)
  by_cases h : home ops k cap ≤ j
  · refine ⟨j - home ops k cap, by omega, ?_⟩
    unfold path
    rw [show home ops k cap + (j - home ops k cap) = j by omega]
    exact Nat.mod_eq_of_lt hj
  · refine ⟨j + cap - home ops k cap, by omega, ?_⟩
    unfold path
    rw [show home ops k cap + (j + cap - home ops k cap) = j + cap by omega,
      Nat.add_mod_right]
    exact Nat.mod_eq_of_lt hj

/-- Where `gray_map_set` writes. -/
theorem setLoop_spec {ops : KeyOps K} (L : Lawful ops) {m : GrayMap K V} (I : Inv ops m)
    (h3 : m.capacity * 3 ≤ int32Max) (hload : 4 * m.count < 3 * m.capacity) (k : K) (v : V) :
    ∀ n i ft, i + n = m.capacity →
    (∀ e, e < i → ¬ Matches ops m k (path ops k m.capacity e) ∧
      m.slots[path ops k m.capacity e]? ≠ some Slot.empty) →
    (match ft with
     | none => ∀ e, e < i → m.slots[path ops k m.capacity e]? ≠ some Slot.tomb
     | some t => m.slots[t]? = some Slot.tomb ∧ ∃ e, e < i ∧ path ops k m.capacity e = t) →
    (∃ p k' v', m.slots[p]? = some (Slot.full k' v') ∧ ops.eq k' k = true ∧
      setLoop ops m k v (home ops k m.capacity) n i ft =
        .ok { m with slots := m.slots.set p (Slot.full k' v) }) ∨
    (∃ d, d < m.capacity ∧
      (m.slots[path ops k m.capacity d]? = some Slot.empty ∨
       m.slots[path ops k m.capacity d]? = some Slot.tomb) ∧
      (∀ e, e < d → m.slots[path ops k m.capacity e]? ≠ some Slot.empty) ∧
      (∀ p, ¬ Matches ops m k p) ∧
      setLoop ops m k v (home ops k m.capacity) n i ft = place m (path ops k m.capacity d) k v) := by
  intro n
  induction n with
  | zero =>
    intro i ft hi hno hft
    cases ft with
    | none =>
      exfalso
      have hall : List.range m.capacity ⊆ m.order := by
        intro j hj
        rw [List.mem_range] at hj
        obtain ⟨e, he, hp⟩ := path_surj ops k hj
        have h1 := (hno e (by omega)).2
        have h2 := hft e (by omega)
        rw [hp] at h1 h2
        have hget : m.slots[j]? = some (m.slots[j]'hj) := List.getElem?_eq_getElem hj
        rw [I.order]
        cases hs : m.slots[j]'hj with
        | empty => rw [hs] at hget; exact absurd hget h1
        | tomb => rw [hs] at hget; exact absurd hget h2
        | full k' v' => exact ⟨k', v', by rw [hget, hs]⟩
      have := (List.nodup_range.subperm hall).length_le
      rw [List.length_range, ← I.count] at this
      omega
    | some t =>
      obtain ⟨ht, e, he, hp⟩ := hft
      refine Or.inr ⟨e, by omega, Or.inr (by rw [hp]; exact ht), fun e' he' => (hno e' (by omega)).2,
        no_match_of_path L I (Or.inl fun e' he' => (hno e' (by omega)).1), ?_⟩
      rw [hp]; rfl
  | succ n ih =>
    intro i ft hi hno hft
    have hpr := probe_ok ops k (i := i) h3 (by omega)
    have hlt : path ops k m.capacity i < m.slots.length :=
      path_lt ops k (cap := m.capacity) (by omega) i
    have hget := List.getElem?_eq_getElem hlt
    unfold setLoop
    rw [hpr]
    simp only []
    cases hs : m.slots[path ops k m.capacity i]? with
    | none => rw [hget] at hs; exact absurd hs (by simp)
    | some s =>
      cases s with
      | empty =>
        simp only []
        have hnm : ∀ p, ¬ Matches ops m k p :=
          no_match_of_path L I (Or.inr ⟨i, hs, fun e he => (hno e he).1⟩)
        cases ft with
        | none => exact Or.inr ⟨i, by omega, Or.inl hs, fun e he => (hno e he).2, hnm, rfl⟩
        | some t =>
          obtain ⟨ht, e, he, hp⟩ := hft
          exact Or.inr ⟨e, by omega, Or.inr (by rw [hp]; exact ht),
            fun e' he' => (hno e' (by omega)).2, hnm, by rw [hp]⟩
      | tomb =>
        simp only []
        apply ih (i + 1) _ (by omega)
        · intro e he
          rcases Nat.lt_succ_iff_lt_or_eq.1 he with h | h
          · exact hno e h
          · subst h
            refine ⟨?_, by rw [hs]; simp⟩
            rintro ⟨k', v, hm, _⟩; rw [hs] at hm; simp at hm
        · cases ft with
          | none => exact ⟨hs, i, by omega, rfl⟩
          | some t =>
            obtain ⟨ht, e, he, hp⟩ := hft
            exact ⟨ht, e, by omega, hp⟩
      | full k' v' =>
        simp only []
        by_cases hk : ops.eq k' k = true
        · rw [if_pos hk]
          exact Or.inl ⟨_, k', v', hs, hk, rfl⟩
        · rw [if_neg hk]
          apply ih (i + 1) _ (by omega)
          · intro e he
            rcases Nat.lt_succ_iff_lt_or_eq.1 he with h | h
            · exact hno e h
            · subst h
              refine ⟨?_, by rw [hs]; simp⟩
              rintro ⟨k2, v2, hm, hk2⟩; rw [hs] at hm
              simp only [Option.some.injEq, Slot.full.injEq] at hm
              rw [← hm.1] at hk2; exact hk hk2
          · cases ft with
            | none =>
              intro e he
              rcases Nat.lt_succ_iff_lt_or_eq.1 he with h | h
              · exact hft e h
              · subst h; rw [hs]; simp
            | some t =>
              obtain ⟨ht, e, he, hp⟩ := hft
              exact ⟨ht, e, by omega, hp⟩

/-! ### The abstract operations -/

/-- Insert or overwrite in an association list in insertion order. -/
def specSet (eq : K → K → Bool) : List (K × V) → K → V → List (K × V)
  | [], k, v => [(k, v)]
  | (k', v') :: t, k, v =>
    if eq k' k then (k', v) :: t else (k', v') :: specSet eq t k v

def specRemove (eq : K → K → Bool) (l : List (K × V)) (k : K) : List (K × V) :=
  l.filter fun e => !eq e.1 k

def specGet (eq : K → K → Bool) (l : List (K × V)) (k : K) : Option V :=
  (l.find? fun e => eq e.1 k).map (·.2)

theorem specSet_append {eq : K → K → Bool} {l : List (K × V)} {k : K} {v : V}
    (h : ∀ e ∈ l, ¬ eq e.1 k = true) : specSet eq l k v = l ++ [(k, v)] := by
  induction l with
  | nil => rfl
  | cons a t ih =>
    obtain ⟨k', v'⟩ := a
    unfold specSet
    rw [if_neg (h (k', v') (by simp)), ih fun e he => h e (by simp [he])]
    rfl

theorem getElem?_set_full {slots : List (Slot K V)} {p s : Nat} {x : Slot K V} (hp : p < slots.length) :
    (slots.set p x)[s]? = if s = p then some x else slots[s]? := by
  rw [List.getElem?_set]
  by_cases h : p = s
  · subst h; simp [hp]
  · rw [if_neg h, if_neg (fun e => h e.symm)]

theorem filterMap_set_notMem {slots : List (Slot K V)} {p : Nat} {x : Slot K V} {o : List Nat}
    (h : p ∉ o) : o.filterMap (entAt (slots.set p x)) = o.filterMap (entAt slots) := by
  apply List.filterMap_congr
  intro s hs
  have : p ≠ s := fun e => h (e ▸ hs)
  unfold entAt
  rw [List.getElem?_set_ne this]

theorem filterMap_set_mem {ops : KeyOps K} {slots : List (Slot K V)} {p : Nat} {k k' : K} {v v' : V}
    (hp : slots[p]? = some (Slot.full k' v')) (hk : ops.eq k' k = true) {o : List Nat} (hn : o.Nodup)
    (hm : p ∈ o)
    (hu : ∀ s ∈ o, ∃ k2 v2, slots[s]? = some (Slot.full k2 v2) ∧ (ops.eq k2 k = true → s = p)) :
    o.filterMap (entAt (slots.set p (Slot.full k' v))) =
      specSet ops.eq (o.filterMap (entAt slots)) k v := by
  have hpl : p < slots.length := (List.getElem?_eq_some_iff.1 hp).1
  induction o with
  | nil => simp at hm
  | cons s o ih =>
    obtain ⟨k2, v2, hs, hmatch⟩ := hu s (by simp)
    rw [List.nodup_cons] at hn
    by_cases hsp : s = p
    · subst hsp
      rw [hs] at hp
      simp only [Option.some.injEq, Slot.full.injEq] at hp
      obtain ⟨rfl, rfl⟩ := hp
      have h1 : entAt (slots.set s (Slot.full k2 v)) s = some (k2, v) :=
        entAt_full (by rw [getElem?_set_full hpl]; simp)
      rw [List.filterMap_cons_some h1, List.filterMap_cons_some (entAt_full hs),
        filterMap_set_notMem hn.1]
      simp [specSet, hk]
    · have h1 : entAt (slots.set p (Slot.full k' v)) s = some (k2, v2) :=
        entAt_full (by rw [getElem?_set_full hpl, if_neg hsp]; exact hs)
      rw [List.filterMap_cons_some h1, List.filterMap_cons_some (entAt_full hs),
        ih hn.2 (by simpa [Ne.symm hsp] using hm) fun s' hs' => hu s' (by simp [hs'])]
      rw [specSet, if_neg fun h => hsp (hmatch h)]

theorem mem_ents {m : GrayMap K V} {e : K × V} :
    e ∈ ents m ↔ ∃ s ∈ m.order, m.slots[s]? = some (Slot.full e.1 e.2) := by
  unfold ents
  rw [List.mem_filterMap]
  constructor
  · rintro ⟨s, hs, h⟩
    refine ⟨s, hs, ?_⟩
    unfold entAt at h
    split at h
    · rename_i k v hk; simp only [Option.some.injEq] at h; subst h; exact hk
    · simp at h
  · rintro ⟨s, hs, h⟩
    exact ⟨s, hs, by rw [entAt_full h]⟩

theorem length_ents {ops : KeyOps K} {m : GrayMap K V} (I : Inv ops m) :
    (ents m).length = m.count := by
  rw [I.count]
  unfold ents
  have : ∀ o : List Nat, (∀ s ∈ o, s ∈ m.order) → (o.filterMap (entAt m.slots)).length = o.length := by
    intro o
    induction o with
    | nil => simp
    | cons s o ih =>
      intro h
      obtain ⟨k, v, hs⟩ := (I.order s).1 (h s (by simp))
      rw [List.filterMap_cons_some (entAt_full hs)]
      simp [ih fun s' hs' => h s' (by simp [hs'])]
  exact this m.order fun _ h => h

theorem no_match_ents {ops : KeyOps K} {m : GrayMap K V} {k : K}
    (h : ∀ p, ¬ Matches ops m k p) : ∀ e ∈ ents m, ¬ ops.eq e.1 k = true := by
  intro e he hk
  obtain ⟨s, _, hs⟩ := mem_ents.1 he
  exact h s ⟨e.1, e.2, hs, hk⟩

/-- Overwriting the value of a stored key. -/
theorem update_spec {ops : KeyOps K} (L : Lawful ops) {m : GrayMap K V} (I : Inv ops m) {p : Nat}
    {k k' : K} {v v' : V} (hp : m.slots[p]? = some (Slot.full k' v')) (hk : ops.eq k' k = true) :
    Inv ops { m with slots := m.slots.set p (Slot.full k' v) } ∧
    ents { m with slots := m.slots.set p (Slot.full k' v) } = specSet ops.eq (ents m) k v := by
  have hpl : p < m.slots.length := (List.getElem?_eq_some_iff.1 hp).1
  have hcap : ({ m with slots := m.slots.set p (Slot.full k' v) } : GrayMap K V).capacity = m.capacity := by
    simp [GrayMap.capacity]
  have key : ∀ (s : Nat) (k2 : K) (v2 : V), (m.slots.set p (Slot.full k' v))[s]? = some (Slot.full k2 v2) →
      ∃ v3, m.slots[s]? = some (Slot.full k2 v3) := by
    intro s k2 v2 h
    rw [getElem?_set_full hpl] at h
    by_cases hsp : s = p
    · rw [if_pos hsp] at h
      simp only [Option.some.injEq, Slot.full.injEq] at h
      exact ⟨v', by rw [hsp, hp, h.1]⟩
    · rw [if_neg hsp] at h; exact ⟨v2, h⟩
  constructor
  · refine ⟨by rw [hcap]; exact I.cap, I.nodup, ?_, I.count, by rw [hcap]; exact I.load, ?_, ?_⟩
    · intro s
      rw [show ({ m with slots := m.slots.set p (Slot.full k' v) } : GrayMap K V).order = m.order from rfl,
        I.order]
      constructor
      · rintro ⟨k2, v2, h⟩
        by_cases hsp : s = p
        · exact ⟨k', v, by show (m.slots.set p _)[s]? = _; rw [getElem?_set_full hpl, if_pos hsp]⟩
        · exact ⟨k2, v2, by
            show (m.slots.set p _)[s]? = _; rw [getElem?_set_full hpl, if_neg hsp]; exact h⟩
      · rintro ⟨k2, v2, h⟩
        obtain ⟨v3, h⟩ := key s k2 v2 h
        exact ⟨k2, v3, h⟩
    · intro i j k1 k2 v1 v2 h1 h2 he
      obtain ⟨v3, h1⟩ := key i k1 v1 h1
      obtain ⟨v4, h2⟩ := key j k2 v2 h2
      exact I.distinct i j k1 k2 v3 v4 h1 h2 he
    · intro i k1 v1 h1
      obtain ⟨v3, h1⟩ := key i k1 v1 h1
      obtain ⟨d, hd, hpa, hne⟩ := I.reach i k1 v3 h1
      rw [hcap]
      refine ⟨d, hd, hpa, fun e he => ?_⟩
      show (m.slots.set p _)[_]? ≠ _
      rw [getElem?_set_full hpl]
      split
      · simp
      · exact hne e he
  · exact filterMap_set_mem hp hk I.nodup ((I.order p).2 ⟨k', v', hp⟩) fun s hs => by
      obtain ⟨k2, v2, h2⟩ := (I.order s).1 hs
      exact ⟨k2, v2, h2, fun he => I.distinct s p k2 k' v2 v' h2 hp
        (L.trans _ _ _ he (L.symm _ _ hk))⟩

/-- Writing a new key into a free slot on its probe path. -/
theorem place_spec {ops : KeyOps K} (L : Lawful ops) {m : GrayMap K V} (I : Inv ops m)
    (hload : 4 * m.count < 3 * m.capacity) {k : K} {v : V} {d : Nat} (hd : d < m.capacity)
    (hfree : m.slots[path ops k m.capacity d]? = some Slot.empty ∨
       m.slots[path ops k m.capacity d]? = some Slot.tomb)
    (hne : ∀ e, e < d → m.slots[path ops k m.capacity e]? ≠ some Slot.empty)
    (hno : ∀ p, ¬ Matches ops m k p) :
    ∃ m', place m (path ops k m.capacity d) k v = .ok m' ∧ Inv ops m' ∧
      m'.capacity = m.capacity ∧ m'.iterating = m.iterating ∧ ents m' = ents m ++ [(k, v)] := by
  have hol : m.order.length < m.capacity := by rw [← I.count]; omega
  generalize hpd : path ops k m.capacity d = p at *
  have hpl : p < m.slots.length := by
    rcases hfree with h | h <;> exact (List.getElem?_eq_some_iff.1 h).1
  have hnf : ∀ k2 v2, m.slots[p]? ≠ some (Slot.full k2 v2) := by
    intro k2 v2 h; rcases hfree with h' | h' <;> rw [h'] at h <;> simp at h
  have hpo : p ∉ m.order := by
    rw [I.order]; rintro ⟨k2, v2, h⟩; exact hnf k2 v2 h
  unfold place
  rw [if_pos hol]
  refine ⟨_, rfl, ?_, by simp [GrayMap.capacity], rfl, ?_⟩
  · have hcap : ({ m with slots := m.slots.set p (Slot.full k v), order := m.order ++ [p],
                          count := m.count + 1 } : GrayMap K V).capacity = m.capacity := by
      simp [GrayMap.capacity]
    have key : ∀ (s : Nat) (k2 : K) (v2 : V), (m.slots.set p (Slot.full k v))[s]? = some (Slot.full k2 v2) →
        (s = p ∧ k2 = k) ∨ (s ≠ p ∧ m.slots[s]? = some (Slot.full k2 v2)) := by
      intro s k2 v2 h
      rw [getElem?_set_full hpl] at h
      by_cases hsp : s = p
      · rw [if_pos hsp] at h
        simp only [Option.some.injEq, Slot.full.injEq] at h
        exact Or.inl ⟨hsp, h.1.symm⟩
      · rw [if_neg hsp] at h; exact Or.inr ⟨hsp, h⟩
    refine ⟨by rw [hcap]; exact I.cap, ?_, ?_, ?_, ?_, ?_, ?_⟩
    · exact List.nodup_append.2 ⟨I.nodup, by simp, by
        intro a ha b hb; simp at hb; subst hb; exact fun h => hpo (h ▸ ha)⟩
    · intro s
      show s ∈ m.order ++ [p] ↔ ∃ k2 v2, (m.slots.set p _)[s]? = _
      rw [List.mem_append, List.mem_singleton, I.order]
      constructor
      · rintro (⟨k2, v2, h⟩ | h)
        · refine ⟨k2, v2, ?_⟩
          rw [getElem?_set_full hpl, if_neg]
          · exact h
          · rintro rfl; exact hnf k2 v2 h
        · exact ⟨k, v, by rw [getElem?_set_full hpl, if_pos h]⟩
      · rintro ⟨k2, v2, h⟩
        rcases key s k2 v2 h with ⟨h, _⟩ | ⟨_, h⟩
        · exact Or.inr h
        · exact Or.inl ⟨k2, v2, h⟩
    · show m.count + 1 = (m.order ++ [p]).length
      rw [List.length_append, I.count]; rfl
    · rw [hcap]; show 4 * (m.count + 1) ≤ _; omega
    · intro i j k1 k2 v1 v2 h1 h2 he
      rcases key i k1 v1 h1 with ⟨hi, hk1⟩ | ⟨hi, h1'⟩ <;>
        rcases key j k2 v2 h2 with ⟨hj, hk2⟩ | ⟨hj, h2'⟩
      · rw [hi, hj]
      · exact absurd ⟨k2, v2, h2', by rw [hk1] at he; exact L.symm _ _ he⟩ (hno j)
      · exact absurd ⟨k1, v1, h1', by rw [hk2] at he; exact he⟩ (hno i)
      · exact I.distinct i j k1 k2 v1 v2 h1' h2' he
    · intro i k1 v1 h1
      rw [hcap]
      have hnew : ∀ q : Nat, m.slots[q]? ≠ some Slot.empty → (m.slots.set p (Slot.full k v))[q]? ≠ some Slot.empty := by
        intro q hq
        rw [getElem?_set_full hpl]
        split
        · simp
        · exact hq
      rcases key i k1 v1 h1 with ⟨hi, hk1⟩ | ⟨hi, h1'⟩
      · subst hk1
        exact ⟨d, hd, by rw [hpd, hi], fun e he => hnew _ (hne e he)⟩
      · obtain ⟨d', hd', hpa, hne'⟩ := I.reach i k1 v1 h1'
        exact ⟨d', hd', hpa, fun e he => hnew _ (hne' e he)⟩
  · show (m.order ++ [p]).filterMap (entAt (m.slots.set p _)) = _
    rw [List.filterMap_append, filterMap_set_notMem hpo]
    have : entAt (m.slots.set p (Slot.full k v)) p = some (k, v) :=
      entAt_full (by rw [getElem?_set_full hpl]; simp)
    rw [List.filterMap_cons_some this]
    rfl

theorem insert_spec {ops : KeyOps K} (L : Lawful ops) {m : GrayMap K V} (I : Inv ops m)
    (h3 : m.capacity * 3 ≤ int32Max) (hload : 4 * m.count < 3 * m.capacity) (k : K) (v : V) :
    ∃ m', insert ops m k v = .ok m' ∧ Inv ops m' ∧ m'.capacity = m.capacity ∧
      m'.iterating = m.iterating ∧ ents m' = specSet ops.eq (ents m) k v := by
  rcases setLoop_spec L I h3 hload k v m.capacity 0 none (by omega) (by simp) (by simp) with
    ⟨p, k', v', hp, hk, hr⟩ | ⟨d, hd, hfree, hne, hno, hr⟩
  · obtain ⟨h1, h2⟩ := update_spec L I (v := v) hp hk
    exact ⟨_, hr, h1, by simp [GrayMap.capacity], rfl, h2⟩
  · obtain ⟨m', hm, h1, h2, h3, h4⟩ := place_spec L I hload (v := v) hd hfree hne hno
    refine ⟨m', hr.trans hm, h1, h2, h3, ?_⟩
    rw [h4, specSet_append (no_match_ents hno)]

theorem new_inv (ops : KeyOps K) (c it : Nat) (h : 8 ≤ c) :
    Inv ops ({ slots := List.replicate c .empty, order := [], count := 0, iterating := it } : GrayMap K V) := by
  have hnf : ∀ (s : Nat) (k : K) (v : V),
      (List.replicate c (Slot.empty : Slot K V))[s]? ≠ some (Slot.full k v) := by
    intro s k v hs
    rw [List.getElem?_replicate] at hs
    split at hs <;> simp at hs
  refine ⟨by simpa [GrayMap.capacity] using h, by simp, ?_, rfl, by simp, ?_, ?_⟩
  · intro s
    constructor
    · intro h; simp at h
    · rintro ⟨k, v, h⟩; exact absurd h (hnf s k v)
  · intro i j k k' v v' h; exact absurd h (hnf i k v)
  · intro i k v h; exact absurd h (hnf i k v)

/-- A set that does not grow the table. -/
theorem setDepth_nogrow {ops : KeyOps K} (L : Lawful ops) {m : GrayMap K V} (I : Inv ops m)
    (hit : m.iterating = 0) (h3 : m.capacity * 3 ≤ int32Max) (hload : 4 * m.count < 3 * m.capacity)
    (d : Nat) (k : K) (v : V) :
    ∃ m', setDepth ops (d + 1) m k v = .ok m' ∧ Inv ops m' ∧ m'.capacity = m.capacity ∧
      m'.iterating = 0 ∧ ents m' = specSet ops.eq (ents m) k v := by
  obtain ⟨m', h1, h2, h4, h5, h6⟩ := insert_spec L I h3 hload k v
  refine ⟨m', ?_, h2, h4, by rw [h5, hit], h6⟩
  unfold setDepth
  rw [if_neg (by omega), if_neg (by omega), if_neg (by omega), if_neg (by omega)]
  exact h1

theorem refill_spec {ops : KeyOps K} (L : Lawful ops) {m0 : GrayMap K V} (I0 : Inv ops m0) (d : Nat) :
    ∀ (ss : List Nat) (m : GrayMap K V), ss.Nodup → (∀ s ∈ ss, s ∈ m0.order) → Inv ops m →
      m.iterating = 0 → m.capacity * 3 ≤ int32Max →
      4 * (m.count + ss.length) < 3 * m.capacity + 4 →
      (∀ e ∈ ents m, ∀ s ∈ ss, ∀ k v, m0.slots[s]? = some (Slot.full k v) → ¬ ops.eq e.1 k = true) →
      ∃ m', refill (setDepth ops (d + 1)) m0.slots ss m = .ok m' ∧ Inv ops m' ∧
        m'.capacity = m.capacity ∧ m'.iterating = 0 ∧
        ents m' = ents m ++ ss.filterMap (entAt m0.slots) := by
  intro ss
  induction ss with
  | nil => intro m _ _ I hit _ _ _; exact ⟨m, rfl, I, rfl, hit, by simp⟩
  | cons s ss ih =>
    intro m hn hs I hit h3 hlen hdis
    obtain ⟨k, v, hk⟩ := (I0.order s).1 (hs s (by simp))
    rw [List.nodup_cons] at hn
    rw [List.length_cons] at hlen
    obtain ⟨m1, h1, I1, hc1, hi1, he1⟩ := setDepth_nogrow L I hit h3 (by omega) d k v
    rw [specSet_append fun e he => hdis e he s (by simp) k v hk] at he1
    have hcount : m1.count = m.count + 1 := by
      rw [← length_ents I1, he1, List.length_append, length_ents I]; rfl
    obtain ⟨m', h', I', hc', hi', he'⟩ := ih m1 hn.2 (fun s' h => hs s' (by simp [h])) I1 hi1
      (by rw [hc1]; exact h3) (by rw [hc1, hcount]; omega) (by
        intro e he s' hs' k' v' hk'
        rw [he1, List.mem_append, List.mem_singleton] at he
        rcases he with he | he
        · exact hdis e he s' (by simp [hs']) k' v' hk'
        · subst he
          intro heq
          have := I0.distinct s s' k k' v v' hk hk' heq
          exact hn.1 (this ▸ hs'))
    refine ⟨m', ?_, I', by rw [hc', hc1], hi', ?_⟩
    · unfold refill
      rw [hk]
      simp only [h1]
      exact h'
    · rw [he', he1, List.filterMap_cons_some (entAt_full hk), List.append_assoc]
      rfl

/-- The limit on live entries below which no `int32_t` expression of the table overflows. -/
def maxLive : Nat := 268435455

theorem setDepth_spec {ops : KeyOps K} (L : Lawful ops) {m : GrayMap K V} (I : Inv ops m)
    (hit : m.iterating = 0) (h3 : m.capacity * 3 ≤ int32Max) (hlive : m.count ≤ maxLive)
    (d : Nat) (k : K) (v : V) :
    ∃ m', setDepth ops (d + 2) m k v = .ok m' ∧ Inv ops m' ∧ m'.capacity * 3 ≤ int32Max ∧
      m'.iterating = 0 ∧ ents m' = specSet ops.eq (ents m) k v := by
  have hM : int32Max = 2147483647 := rfl
  have hL : maxLive = 268435455 := rfl
  have hcap := I.cap
  have hload := I.load
  by_cases hg : m.capacity * 3 ≤ m.count * 4
  · have In : Inv ops ({ slots := List.replicate (m.capacity * 2) .empty, order := [], count := 0,
                         iterating := m.iterating } : GrayMap K V) := new_inv ops _ _ (by omega)
    have hc0 : ({ slots := List.replicate (m.capacity * 2) .empty, order := [], count := 0,
                  iterating := m.iterating } : GrayMap K V).capacity = m.capacity * 2 := by
      simp [GrayMap.capacity]
    obtain ⟨m1, h1, I1, hc1, hi1, he1⟩ := refill_spec L I d m.order _ I.nodup (fun _ h => h) In hit
      (by rw [hc0]; omega) (by rw [hc0, ← I.count]; show 4 * (0 + _) < _; omega)
      (by intro e he; exact absurd he (by simp [ents]))
    have he1' : ents m1 = ents m := by rw [he1]; rfl
    have hcount : m1.count = m.count := by rw [← length_ents I1, he1', length_ents I]
    rw [hc0] at hc1
    obtain ⟨m2, h2, I2, hc2, hi2, he2⟩ := insert_spec L I1 (by rw [hc1]; omega)
      (by rw [hcount, hc1]; omega) k v
    refine ⟨m2, ?_, I2, by rw [hc2, hc1]; omega, by rw [hi2, hi1], by rw [he2, he1']⟩
    unfold setDepth
    rw [if_neg (by omega), if_neg (by omega), if_neg (by omega), if_pos hg]
    have : rehash (setDepth ops (d + 1)) m = .ok m1 := by
      unfold rehash
      rw [if_pos (by omega)]
      exact h1
    rw [this]
    exact h2
  · obtain ⟨m', h1, I1, hc, hi, he⟩ := setDepth_nogrow L I hit h3 (by omega) (d + 1) k v
    exact ⟨m', h1, I1, by rw [hc]; exact h3, hi, he⟩

/-! ### Removal, clearing, lookup -/

theorem filterMap_erase {ops : KeyOps K} {slots : List (Slot K V)} {p : Nat} {k k' : K} {v' : V}
    (hp : slots[p]? = some (Slot.full k' v')) (hk : ops.eq k' k = true) {o : List Nat} (hn : o.Nodup)
    (hu : ∀ s ∈ o, ∃ k2 v2, slots[s]? = some (Slot.full k2 v2) ∧ (ops.eq k2 k = true → s = p)) :
    (o.erase p).filterMap (entAt (slots.set p Slot.tomb)) =
      specRemove ops.eq (o.filterMap (entAt slots)) k := by
  have hnm : p ∉ o.erase p := fun h => ((List.Nodup.mem_erase_iff hn).1 h).1 rfl
  rw [filterMap_set_notMem hnm]
  clear hnm
  induction o with
  | nil => rfl
  | cons s o ih =>
    obtain ⟨k2, v2, hs, hmatch⟩ := hu s (by simp)
    rw [List.nodup_cons] at hn
    have ih' := ih hn.2 fun s' hs' => hu s' (by simp [hs'])
    rw [List.filterMap_cons_some (entAt_full hs)]
    by_cases hsp : s = p
    · subst hsp
      rw [hs] at hp
      simp only [Option.some.injEq, Slot.full.injEq] at hp
      obtain ⟨rfl, rfl⟩ := hp
      rw [List.erase_cons_head]
      rw [List.erase_of_not_mem hn.1] at ih'
      rw [ih']
      simp [specRemove, hk]
    · rw [List.erase_cons_tail (by simpa using hsp), List.filterMap_cons_some (entAt_full hs), ih']
      have : ops.eq k2 k = false := by
        rw [Bool.eq_false_iff]; exact fun h => hsp (hmatch h)
      simp [specRemove, this]

theorem remove_spec {ops : KeyOps K} (L : Lawful ops) {m : GrayMap K V} (I : Inv ops m)
    (hit : m.iterating = 0) (h3 : m.capacity * 3 ≤ int32Max) (k : K) :
    ∃ m', remove ops m k = .ok (m', (ents m).any fun e => ops.eq e.1 k) ∧ Inv ops m' ∧
      m'.capacity = m.capacity ∧ m'.iterating = 0 ∧ ents m' = specRemove ops.eq (ents m) k := by
  unfold remove
  rw [if_neg (by omega)]
  rcases findSlot_spec L I h3 k with ⟨p, hf, k', v', hp, hk⟩ | ⟨hf, hno⟩
  · rw [hf]
    simp only []
    have hpl : p < m.slots.length := (List.getElem?_eq_some_iff.1 hp).1
    have hmem : p ∈ m.order := (I.order p).2 ⟨k', v', hp⟩
    have hany : (ents m).any (fun e => ops.eq e.1 k) = true := by
      rw [List.any_eq_true]
      exact ⟨(k', v'), mem_ents.2 ⟨p, hmem, hp⟩, hk⟩
    have hcap : ({ m with slots := m.slots.set p Slot.tomb, count := m.count - 1,
                          order := m.order.erase p } : GrayMap K V).capacity = m.capacity := by
      simp [GrayMap.capacity]
    have key : ∀ (s : Nat) (k2 : K) (v2 : V), (m.slots.set p Slot.tomb)[s]? = some (Slot.full k2 v2) →
        s ≠ p ∧ m.slots[s]? = some (Slot.full k2 v2) := by
      intro s k2 v2 h
      rw [getElem?_set_full hpl] at h
      by_cases hsp : s = p
      · rw [if_pos hsp] at h; simp at h
      · rw [if_neg hsp] at h; exact ⟨hsp, h⟩
    rw [hany]
    refine ⟨_, rfl, ?_, hcap, hit, ?_⟩
    · refine ⟨by rw [hcap]; exact I.cap, I.nodup.erase _, ?_, ?_, ?_, ?_, ?_⟩
      · intro s
        show s ∈ m.order.erase p ↔ ∃ k2 v2, (m.slots.set p _)[s]? = _
        rw [I.nodup.mem_erase_iff, I.order]
        constructor
        · rintro ⟨hsp, k2, v2, h⟩
          exact ⟨k2, v2, by rw [getElem?_set_full hpl, if_neg hsp]; exact h⟩
        · rintro ⟨k2, v2, h⟩
          exact ⟨(key s k2 v2 h).1, k2, v2, (key s k2 v2 h).2⟩
      · show m.count - 1 = (m.order.erase p).length
        rw [List.length_erase_of_mem hmem, I.count]
      · rw [hcap]; have := I.load; show 4 * (m.count - 1) ≤ _; omega
      · intro i j k1 k2 v1 v2 h1 h2 he
        exact I.distinct i j k1 k2 v1 v2 (key i k1 v1 h1).2 (key j k2 v2 h2).2 he
      · intro i k1 v1 h1
        rw [hcap]
        obtain ⟨d, hd, hpa, hne⟩ := I.reach i k1 v1 (key i k1 v1 h1).2
        refine ⟨d, hd, hpa, fun e he => ?_⟩
        show (m.slots.set p _)[_]? ≠ _
        rw [getElem?_set_full hpl]
        split
        · simp
        · exact hne e he
    · exact filterMap_erase hp hk I.nodup fun s hs => by
        obtain ⟨k2, v2, h2⟩ := (I.order s).1 hs
        exact ⟨k2, v2, h2, fun he => I.distinct s p k2 k' v2 v' h2 hp
          (L.trans _ _ _ he (L.symm _ _ hk))⟩
  · rw [hf]
    have hne := no_match_ents hno
    have hany : (ents m).any (fun e => ops.eq e.1 k) = false := by
      rw [List.any_eq_false]; exact hne
    rw [hany]
    refine ⟨m, rfl, I, rfl, hit, ?_⟩
    unfold specRemove
    rw [List.filter_eq_self.2]
    intro e he
    simpa using hne e he

theorem get_spec {ops : KeyOps K} (L : Lawful ops) {m : GrayMap K V} (I : Inv ops m)
    (h3 : m.capacity * 3 ≤ int32Max) (k : K) :
    get ops m k = .ok (specGet ops.eq (ents m) k) := by
  unfold get
  rcases findSlot_spec L I h3 k with ⟨p, hf, k', v', hp, hk⟩ | ⟨hf, hno⟩
  · rw [hf]
    simp only [Outcome.bind_ok]
    have : valueAt m p = .ok v' := by unfold valueAt; rw [hp]
    rw [this]
    simp only [Outcome.bind_ok]
    have hmem : ((k', v') : K × V) ∈ ents m := mem_ents.2 ⟨p, (I.order p).2 ⟨k', v', hp⟩, hp⟩
    unfold specGet
    cases hfd : (ents m).find? (fun e => ops.eq e.1 k) with
    | none => rw [List.find?_eq_none] at hfd; exact absurd hk (hfd _ hmem)
    | some e =>
      have he := List.mem_of_find?_eq_some hfd
      have hek := List.find?_some hfd
      obtain ⟨s, _, hs⟩ := mem_ents.1 he
      have := I.distinct s p e.1 k' e.2 v' hs hp (L.trans _ _ _ hek (L.symm _ _ hk))
      subst this
      rw [hs] at hp
      simp only [Option.some.injEq, Slot.full.injEq] at hp
      simp [hp.2]
  · rw [hf]
    have hne := no_match_ents hno
    unfold specGet
    rw [List.find?_eq_none.2 hne]
    rfl

theorem has_spec {ops : KeyOps K} (L : Lawful ops) {m : GrayMap K V} (I : Inv ops m)
    (h3 : m.capacity * 3 ≤ int32Max) (k : K) :
    has ops m k = .ok ((ents m).any fun e => ops.eq e.1 k) := by
  unfold has
  rcases findSlot_spec L I h3 k with ⟨p, hf, k', v', hp, hk⟩ | ⟨hf, hno⟩
  · rw [hf]
    have hany : (ents m).any (fun e => ops.eq e.1 k) = true := by
      rw [List.any_eq_true]
      exact ⟨(k', v'), mem_ents.2 ⟨p, (I.order p).2 ⟨k', v', hp⟩, hp⟩, hk⟩
    rw [hany]; rfl
  · rw [hf]
    have hany : (ents m).any (fun e => ops.eq e.1 k) = false := by
      rw [List.any_eq_false]; exact no_match_ents hno
    rw [hany]; rfl

theorem walk_spec {ops : KeyOps K} {m : GrayMap K V} (I : Inv ops m) :
    ∀ o, (∀ s ∈ o, s ∈ m.order) → walk m o = .ok (o.filterMap (entAt m.slots)) := by
  intro o
  induction o with
  | nil => intro _; rfl
  | cons s o ih =>
    intro h
    obtain ⟨k, v, hs⟩ := (I.order s).1 (h s (by simp))
    unfold walk
    rw [hs]
    simp only [ih fun s' hs' => h s' (by simp [hs'])]
    rw [List.filterMap_cons_some (entAt_full hs)]

theorem entries_spec {ops : KeyOps K} {m : GrayMap K V} (I : Inv ops m) :
    entries m = .ok (ents m) := walk_spec I m.order fun _ h => h

theorem clear_spec {ops : KeyOps K} {m : GrayMap K V} (I : Inv ops m) :
    Inv ops (clear m) ∧ ents (clear m) = [] ∧ (clear m).capacity = m.capacity ∧
      (clear m).iterating = m.iterating :=
  ⟨new_inv ops _ _ I.cap, rfl, by simp [clear, GrayMap.capacity], rfl⟩

theorem copy_spec {ops : KeyOps K} {m : GrayMap K V} (I : Inv ops m) :
    Inv ops (copy m) ∧ ents (copy m) = ents m ∧ (copy m).iterating = 0 :=
  ⟨⟨I.cap, I.nodup, I.order, I.count, I.load, I.distinct, I.reach⟩, rfl, rfl⟩

end Verif.Map
