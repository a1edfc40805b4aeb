import Verif.Model.Scope
import Mathlib.Data.List.Nodup
import Mathlib.Data.Nat.Find

/-! C55: name lookup. -/
namespace Verif.Props
open Verif Verif.Str Verif.Scope

/-- What a program does to the scopes. -/
inductive ScopeOp (V : Type) where
  | push | pop
  | define (name : Str) (v : V)

/-- The meaning of the operations: every scope is the list of its definitions, the last one first. -/
def ScopeOp.spec {V : Type} : List (List (Str × V)) → ScopeOp V → List (List (Str × V))
  | st, .push => [] :: st
  | _ :: st, .pop => st
  | [], .pop => []
  | s :: st, .define n v => ((n, v) :: s) :: st
  | [], .define _ _ => []

/-- The binding of a name: the last definition in the innermost scope that has one. -/
inductive Binds {V : Type} (n : Str) (v : V) : List (List (Str × V)) → Prop where
  | here {s st} (p r : List (Str × V)) (hs : s = p ++ (n, v) :: r) (hp : ∀ e ∈ p, e.1 ≠ n) : Binds n v (s :: st)
  | outer {s st} (hs : ∀ e ∈ s, e.1 ≠ n) (h : Binds n v st) : Binds n v (s :: st)

/-- The operations of the code: `scope_create`, going back to the parent, `scope_define` in the innermost scope. -/
def ScopeOp.run {V : Type} : List (Scp V) → ScopeOp V → Option (List (Scp V))
  | st, .push => some (create :: st)
  | _ :: st, .pop => some st
  | [], .pop => some []
  | s :: st, .define n v => (Scope.define s n v).map (· :: st)
  | [], .define _ _ => some []

def ScopeOp.runs {V : Type} : List (Scp V) → List (ScopeOp V) → Option (List (Scp V))
  | st, [] => some st
  | st, o :: os => (o.run st).bind fun st => ScopeOp.runs st os

namespace Sc

theorem strHash_lt (s : Str) : strHash s < 2 ^ 32 := by
  have : ∀ (s : Str) (h : Nat), h < 2 ^ 32 → s.foldl (fun h c => (h * 33) % 2 ^ 32 ^^^ c.toNat) h < 2 ^ 32 := by
    intro s
    induction s with
    | nil => exact fun h hh => hh
    | cons c s ih =>
      intro h hh
      rw [List.foldl_cons]
      refine ih _ (Nat.xor_lt_two_pow (Nat.mod_lt _ (by decide)) (Nat.lt_trans c.isLt (by decide)))
  exact this s _ (by decide)

theorem mask_mod (x k : Nat) : x &&& (2 ^ k - 1) = x % 2 ^ k := Nat.and_two_pow_sub_one_eq_mod x k

/-- The slots in the order of the probes. -/
def slot (cap : Nat) (h j : Nat) : Nat := (h + j) % cap

theorem slot_next {k h : Nat} (j : Nat) : (slot (2 ^ k) h j + 1) &&& (2 ^ k - 1) = slot (2 ^ k) h (j + 1) := by
  rw [mask_mod, slot, slot, Nat.mod_add_mod, Nat.add_assoc]

theorem slot_surj {cap : Nat} (h x : Nat) (hx : x < cap) : ∃ j < cap, slot cap h j = x := by
  have hm := Nat.mod_lt h (show 0 < cap by omega)
  have e : h = cap * (h / cap) + h % cap := (Nat.div_add_mod h cap).symm
  by_cases hle : h % cap ≤ x
  · refine ⟨x - h % cap, by omega, ?_⟩
    rw [slot, show h + (x - h % cap) = x + cap * (h / cap) by omega, Nat.add_mul_mod_self_left, Nat.mod_eq_of_lt hx]
  · refine ⟨x + cap - h % cap, by omega, ?_⟩
    rw [slot, show h + (x + cap - h % cap) = x + cap * (h / cap + 1) by rw [Nat.mul_add]; omega,
      Nat.add_mul_mod_self_left, Nat.mod_eq_of_lt hx]

/-- The number of entries. -/
def used (cap : Nat) (t : Table) : Nat := ((List.range cap).filter fun x => (t x).isSome).length

theorem used_upd {t : Table} {x : Nat} (hx : t x = none) (e : Str × Nat) : ∀ cap : Nat,
    used cap (fun y => if y = x then some e else t y) = used cap t + if x < cap then 1 else 0
  | 0 => rfl
  | n + 1 => by
    have ih := used_upd hx e n
    unfold used at ih ⊢
    rw [List.range_succ, List.filter_append, List.filter_append, List.length_append, List.length_append, ih]
    by_cases h : n = x
    · subst h
      simp [hx]
    · have e1 : (x < n + 1) ↔ (x < n) := by omega
      have e2 : (fun y => ((if y = x then some e else t y) : Option (Str × Nat)).isSome) n = (t n).isSome := by
        dsimp only; rw [if_neg h]
      simp only [e1, List.filter_cons, if_neg h, List.filter_nil]
      omega

theorem has_empty {cap : Nat} {t : Table} (h : used cap t < cap) : ∃ x < cap, t x = none := by
  by_contra hn
  push Not at hn
  have : (List.range cap).filter (fun x => (t x).isSome) = List.range cap := by
    rw [List.filter_eq_self]
    exact fun x hx => Option.isSome_iff_ne_none.2 (hn x (List.mem_range.1 hx))
  rw [used, this, List.length_range] at h
  exact Nat.lt_irrefl _ h

/-- The first empty slot after a hash value. -/
theorem first_empty {cap : Nat} {t : Table} (h : used cap t < cap) (h0 : Nat) :
    ∃ j < cap, t (slot cap h0 j) = none ∧ ∀ i < j, t (slot cap h0 i) ≠ none := by
  obtain ⟨x, hx, hn⟩ := has_empty h
  obtain ⟨j, hj, e⟩ := slot_surj h0 x hx
  have hex : ∃ j, t (slot cap h0 j) = none := ⟨j, by rw [e]; exact hn⟩
  classical
  refine ⟨Nat.find hex, ?_, Nat.find_spec hex, fun i hi => Nat.find_min hex hi⟩
  exact Nat.lt_of_le_of_lt (Nat.find_min' hex (by rw [e]; exact hn)) hj

theorem insLoop_spec {k : Nat} (name : Str) (idx h0 : Nat) (t : Table) (j : Nat) (hj : t (slot (2 ^ k) h0 j) = none) :
    ∀ (d i f : Nat), i + d = j → d < f → (∀ x, i ≤ x → x < j → t (slot (2 ^ k) h0 x) ≠ none) →
      insLoop (2 ^ k - 1) name idx f t (slot (2 ^ k) h0 i) =
        some fun x => if x = slot (2 ^ k) h0 j then some (name, idx) else t x
  | 0, i, f + 1, hi, _, _ => by
    rw [Nat.add_zero] at hi
    subst hi
    rw [insLoop, hj]
  | d + 1, i, f + 1, hi, hf, h => by
    rw [insLoop]
    cases ht : t (slot (2 ^ k) h0 i) with
    | none => exact absurd ht (h i (Nat.le_refl _) (by omega))
    | some e =>
      dsimp only
      rw [slot_next]
      exact insLoop_spec name idx h0 t j hj d (i + 1) f (by omega) (by omega) fun x h1 h2 => h x (by omega) h2

/-- The table holds these names with their indices. -/
structure Holds (cap : Nat) (t : Table) (ns : List Str) : Prop where
  used : used cap t = ns.length
  sound : ∀ x < cap, ∀ e, t x = some e → ns[e.2]? = some e.1
  found : ∀ i n, ns[i]? = some n → ∃ j < cap, t (slot cap (strHash n) j) = some (n, i) ∧
    ∀ y < j, t (slot cap (strHash n) y) ≠ none

theorem slot_lt {cap : Nat} (hc : 0 < cap) (h j : Nat) : slot cap h j < cap := Nat.mod_lt _ hc

theorem insert_spec {k : Nat} {t : Table} {ns : List Str} (h : Holds (2 ^ k) t ns) (hl : ns.length < 2 ^ k) (n : Str) :
    ∃ t', insert (2 ^ k) t n ns.length = some t' ∧ Holds (2 ^ k) t' (ns ++ [n]) := by
  have hc : 0 < 2 ^ k := Nat.two_pow_pos k
  obtain ⟨j, hj, hn, hb⟩ := first_empty (t := t) (by rw [h.used]; exact hl) (strHash n)
  refine ⟨fun x => if x = slot (2 ^ k) (strHash n) j then some (n, ns.length) else t x, ?_, ?_⟩
  · unfold Scope.insert
    have := insLoop_spec n ns.length (strHash n) t j hn j 0 (2 ^ k) (by omega) hj fun x _ hx => hb x hx
    rw [show slot (2 ^ k) (strHash n) 0 = strHash n &&& (2 ^ k - 1) by rw [mask_mod]; rfl] at this
    exact this
  · refine ⟨?_, ?_, ?_⟩
    · rw [used_upd hn, h.used, if_pos (slot_lt hc _ _), List.length_append]; rfl
    · intro x hx e he
      by_cases hxs : x = slot (2 ^ k) (strHash n) j
      · simp only [if_pos hxs, Option.some.injEq] at he
        subst he
        simp
      · simp only [if_neg hxs] at he
        have := h.sound x hx e he
        rw [List.getElem?_append_left (List.getElem?_eq_some_iff.1 this).1]
        exact this
    · intro i m hi
      by_cases hil : i < ns.length
      · rw [List.getElem?_append_left hil] at hi
        obtain ⟨y, hy, h1, h2⟩ := h.found i m hi
        refine ⟨y, hy, ?_, fun z hz => ?_⟩
        · rw [if_neg, h1]
          intro e; rw [e, hn] at h1; cases h1
        · split
          · simp
          · exact h2 z hz
      · have hie : i = ns.length := by
          have := (List.getElem?_eq_some_iff.1 hi).1
          rw [List.length_append, List.length_singleton] at this
          omega
        subst hie
        simp only [List.getElem?_concat_length, Option.some.injEq] at hi
        subst hi
        refine ⟨j, hj, if_pos rfl, fun z hz => ?_⟩
        split
        · simp
        · exact hb z hz

theorem rebuild_spec {V : Type} {k : Nat} : ∀ (l : List (Str × V)) (t : Table) (ns : List Str), Holds (2 ^ k) t ns →
    ns.length + l.length ≤ 2 ^ k →
    ∃ t', rebuildLoop (2 ^ k) l ns.length t = some t' ∧ Holds (2 ^ k) t' (ns ++ l.map (·.1))
  | [], t, ns, h, _ => ⟨t, rfl, by simpa using h⟩
  | s :: l, t, ns, h, hl => by
    rw [List.length_cons] at hl
    obtain ⟨t1, h1, h2⟩ := insert_spec h (by omega) s.1
    obtain ⟨t2, h3, h4⟩ := rebuild_spec l t1 (ns ++ [s.1]) h2 (by rw [List.length_append, List.length_singleton]; omega)
    refine ⟨t2, ?_, by simpa using h4⟩
    rw [rebuildLoop, h1]
    dsimp only
    rw [show ns.length + 1 = (ns ++ [s.1]).length by simp]
    exact h3

theorem holds_empty (cap : Nat) : Holds cap (fun _ => none) [] := by
  refine ⟨?_, nofun, fun i n h => by simp at h⟩
  unfold used
  simp

theorem lookLoop_spec {k : Nat} {t : Table} (name : Str) (h0 j : Nat)
    (hj : t (slot (2 ^ k) h0 j) = none ∨ ∃ i, t (slot (2 ^ k) h0 j) = some (name, i)) :
    ∀ (d i f : Nat), i + d = j → d < f →
      (∀ x, i ≤ x → x < j → ∃ e, t (slot (2 ^ k) h0 x) = some e ∧ e.1 ≠ name) →
      lookLoop (2 ^ k - 1) t name f (slot (2 ^ k) h0 i) = some ((t (slot (2 ^ k) h0 j)).map (·.2))
  | 0, i, f + 1, hi, _, _ => by
    rw [Nat.add_zero] at hi
    subst hi
    rw [lookLoop]
    rcases hj with hj | ⟨m, hj⟩
    · rw [hj]; rfl
    · rw [hj]; exact if_pos rfl
  | d + 1, i, f + 1, hi, hf, h => by
    rw [lookLoop]
    obtain ⟨e, he, hne⟩ := h i (Nat.le_refl _) (by omega)
    rw [he]
    dsimp only
    rw [if_neg hne, slot_next]
    exact lookLoop_spec name h0 j hj d (i + 1) f (by omega) (by omega) fun x h1 h2 => h x (by omega) h2

/-- A lookup in a table finds the index of a name, or nothing. -/
theorem look_spec {k : Nat} {t : Table} {ns : List Str} (h : Holds (2 ^ k) t ns) (hl : ns.length < 2 ^ k) (name : Str) :
    (name ∉ ns ∧ lookLoop (2 ^ k - 1) t name (2 ^ k) (strHash name &&& (2 ^ k - 1)) = some none) ∨
    ∃ i, ns[i]? = some name ∧ lookLoop (2 ^ k - 1) t name (2 ^ k) (strHash name &&& (2 ^ k - 1)) = some (some i) := by
  have hc : 0 < 2 ^ k := Nat.two_pow_pos k
  obtain ⟨j, hj, hn, hb⟩ := first_empty (t := t) (by rw [h.used]; exact hl) (strHash name)
  have e0 : strHash name &&& (2 ^ k - 1) = slot (2 ^ k) (strHash name) 0 := by rw [mask_mod]; rfl
  by_cases hm : ∃ x, x < j ∧ ∃ i, t (slot (2 ^ k) (strHash name) x) = some (name, i)
  · right
    classical
    obtain ⟨hx, i, hi⟩ := Nat.find_spec hm
    have hmin := fun y hy => Nat.find_min hm (m := y) hy
    refine ⟨i, h.sound _ (slot_lt hc _ _) _ hi, ?_⟩
    rw [e0, lookLoop_spec name (strHash name) (Nat.find hm) (Or.inr ⟨i, hi⟩) (Nat.find hm) 0 (2 ^ k) (by omega) (by omega)
      fun y _ hy => ?_, hi]
    · rfl
    · cases he : t (slot (2 ^ k) (strHash name) y) with
      | none => exact absurd he (hb y (by omega))
      | some e =>
        refine ⟨e, rfl, fun hen => hmin y hy ⟨by omega, e.2, ?_⟩⟩
        rw [he, ← hen]
  · left
    refine ⟨fun hmem => ?_, ?_⟩
    · obtain ⟨i, hi, e⟩ := List.getElem_of_mem hmem
      obtain ⟨y, hy, h1, h2⟩ := h.found i name (by rw [List.getElem?_eq_getElem hi, e])
      refine hm ⟨y, ?_, i, h1⟩
      by_contra hlt
      by_cases hyj : y = j
      · rw [hyj, hn] at h1; cases h1
      · exact h2 j (by omega) hn
    · rw [e0, lookLoop_spec name (strHash name) j (Or.inl hn) j 0 (2 ^ k) (by omega) hj fun y _ hy => ?_, hn]
      · rfl
      · cases he : t (slot (2 ^ k) (strHash name) y) with
        | none => exact absurd he (hb y hy)
        | some e => exact ⟨e, rfl, fun hen => hm ⟨y, hy, e.2, by rw [he, ← hen]⟩⟩

theorem grow_spec (need : Nat) : ∀ (f k : Nat), need ≤ 2 ^ k * 2 ^ f →
    ∃ m, k ≤ m ∧ grow need (f + 1) (2 ^ k) = some (2 ^ m) ∧ need ≤ 2 ^ m := by
  intro f
  induction f with
  | zero =>
    intro k h
    rw [Nat.pow_zero, Nat.mul_one] at h
    exact ⟨k, Nat.le_refl _, if_pos (by omega), h⟩
  | succ f ih =>
    intro k h
    rw [grow]
    by_cases hle : need < 2 ^ k ∨ need = 2 ^ k
    · exact ⟨k, Nat.le_refl _, if_pos hle, by omega⟩
    · rw [if_neg hle, ← Nat.pow_succ]
      obtain ⟨m, h1, h2⟩ := ih (k + 1) (by rw [Nat.pow_succ] at h ⊢; rw [Nat.mul_assoc, Nat.mul_comm 2]; exact h)
      exact ⟨m, by omega, h2⟩

/-- A scope made by the code. -/
structure Good {V : Type} (s : Scp V) : Prop where
  nodup : (s.syms.map (·.1)).Nodup
  table : (s.cap = 0 ∧ s.syms = []) ∨ ∃ k, s.cap = 2 ^ k ∧ s.syms.length < 2 ^ k ∧ Holds (2 ^ k) s.tab (s.syms.map (·.1))

theorem local_spec {V : Type} {s : Scp V} (h : Good s) (name : Str) :
    ((∀ e ∈ s.syms, e.1 ≠ name) ∧ lookupLocal s name = some none) ∨
    ∃ i v, s.syms[i]? = some (name, v) ∧ lookupLocal s name = some (some i) := by
  unfold lookupLocal
  rcases h.table with ⟨h1, h2⟩ | ⟨k, h1, h2, h3⟩
  · left
    rw [h1, h2]
    exact ⟨nofun, rfl⟩
  · rw [if_pos (by rw [h1]; exact Nat.ne_of_gt (Nat.two_pow_pos k)), h1]
    rcases look_spec h3 (by rw [List.length_map]; exact h2) name with ⟨a, b⟩ | ⟨i, a, b⟩
    · exact Or.inl ⟨fun e he hn => a (List.mem_map.2 ⟨e, he, hn⟩), b⟩
    · rw [List.getElem?_map, Option.map_eq_some_iff] at a
      obtain ⟨e, he, rfl⟩ := a
      exact Or.inr ⟨i, e.2, he, b⟩

theorem room_spec {V : Type} {s : Scp V} (h : Good s) :
    ∃ k t, room s = some (2 ^ k, t) ∧ s.syms.length + 1 < 2 ^ k ∧ Holds (2 ^ k) t (s.syms.map (·.1)) := by
  unfold room
  by_cases hc : s.cap = 0 ∨ s.cap < (s.syms.length + 1) * 2
  · rw [if_pos hc]
    obtain ⟨k0, hk0⟩ : ∃ k0, (if s.cap ≠ 0 then s.cap * 2 else 16) = 2 ^ k0 := by
      rcases h.table with ⟨h1, -⟩ | ⟨k, h1, -⟩
      · exact ⟨4, by rw [h1]; rfl⟩
      · exact ⟨k + 1, by rw [h1, if_pos (Nat.ne_of_gt (Nat.two_pow_pos k)), Nat.pow_succ]⟩
    rw [hk0]
    have hb : (s.syms.length + 1) * 2 ≤ 2 ^ k0 * 2 ^ ((s.syms.length + 1) * 2) :=
      Nat.le_trans (Nat.le_of_lt Nat.lt_two_pow_self) (Nat.le_mul_of_pos_left _ (Nat.two_pow_pos k0))
    obtain ⟨m, -, h1, h2⟩ := grow_spec _ _ k0 hb
    · obtain ⟨t, h3, h4⟩ := rebuild_spec (k := m) s.syms (fun _ => none) [] (holds_empty _) (by simp; omega)
      refine ⟨m, t, ?_, by omega, by simpa using h4⟩
      rw [h1]
      dsimp only
      rw [show rebuildLoop (2 ^ m) s.syms 0 (fun _ => none) = some t from h3]
      rfl
  · rw [if_neg hc]
    rcases h.table with ⟨h1, -⟩ | ⟨k, h1, h2, h3⟩
    · exact absurd (Or.inl h1) hc
    · exact ⟨k, s.tab, by rw [h1], by omega, h3⟩

/-- A scope and the list of its definitions. -/
structure Rel {V : Type} (s : Scp V) (ds : List (Str × V)) : Prop where
  good : Good s
  some_ : ∀ (i : Nat) (n : Str) (v : V), s.syms[i]? = some (n, v) → ∃ p r, ds = p ++ (n, v) :: r ∧ ∀ e ∈ p, e.1 ≠ n
  none_ : ∀ n : Str, (∀ e ∈ s.syms, e.1 ≠ n) → ∀ e ∈ ds, e.1 ≠ n

theorem rel_create {V : Type} : Rel (create : Scp V) [] :=
  ⟨⟨List.nodup_nil, Or.inl ⟨rfl, rfl⟩⟩, fun i n v h => by simp [create] at h, nofun⟩

theorem map_modify {V : Type} (v : V) (l : List (Str × V)) (i : Nat) :
    (l.modify i fun e => (e.1, v)).map (·.1) = l.map (·.1) := by
  apply List.ext_getElem?
  intro j
  rw [List.getElem?_map, List.getElem?_map, List.getElem?_modify]
  cases l[j]? with
  | none => rfl
  | some e =>
    show some _ = some _
    by_cases h : i = j <;> simp [h]

theorem rel_define {V : Type} {s : Scp V} {ds : List (Str × V)} (h : Rel s ds) (n : Str) (v : V) :
    ∃ s', Scope.define s n v = some s' ∧ Rel s' ((n, v) :: ds) := by
  unfold Scope.define
  rcases local_spec h.good n with ⟨h1, h2⟩ | ⟨i, w, h1, h2⟩
  · rw [h2]
    dsimp only
    obtain ⟨k, t, hr, hl, hh⟩ := room_spec h.good
    obtain ⟨t', ht, hh'⟩ := insert_spec hh (by rw [List.length_map]; omega) n
    rw [List.length_map] at ht
    rw [hr]
    dsimp only
    rw [ht]
    refine ⟨_, rfl, ⟨⟨?_, Or.inr ⟨k, rfl, ?_, ?_⟩⟩, ?_, ?_⟩⟩
    · rw [List.map_append, List.nodup_append]
      refine ⟨h.good.nodup, by simp, fun a ha b hb hab => ?_⟩
      obtain ⟨e, he, rfl⟩ := List.mem_map.1 ha
      rw [List.map_singleton, List.mem_singleton] at hb
      exact h1 e he (hab.trans hb)
    · rw [List.length_append, List.length_singleton]; exact hl
    · rw [List.map_append]; exact hh'
    · intro i m w hi
      by_cases hil : i < s.syms.length
      · rw [List.getElem?_append_left hil] at hi
        obtain ⟨p, r, e, hp⟩ := h.some_ i m w hi
        refine ⟨(n, v) :: p, r, by rw [e]; rfl, fun e' he' => ?_⟩
        rcases List.mem_cons.1 he' with rfl | he'
        · exact fun hnm => h1 (m, w) (List.mem_of_getElem? hi) hnm.symm
        · exact hp e' he'
      · have hie : i = s.syms.length := by
          have := (List.getElem?_eq_some_iff.1 hi).1
          rw [List.length_append, List.length_singleton] at this
          omega
        subst hie
        simp only [List.getElem?_concat_length, Option.some.injEq, Prod.mk.injEq] at hi
        obtain ⟨rfl, rfl⟩ := hi
        exact ⟨[], ds, rfl, nofun⟩
    · intro m hm e he
      rcases List.mem_cons.1 he with rfl | he
      · exact hm (n, v) (by simp)
      · exact h.none_ m (fun e he => hm e (List.mem_append_left _ he)) e he
  · rw [h2]
    have hmem : ∀ m, (∀ e ∈ s.syms.modify i fun e => (e.1, v), e.1 ≠ m) → ∀ e ∈ s.syms, e.1 ≠ m := by
      intro m hm e he
      have : e.1 ∈ (s.syms.modify i fun e => (e.1, v)).map (·.1) := by
        rw [map_modify]; exact List.mem_map.2 ⟨e, he, rfl⟩
      obtain ⟨e', he', hee⟩ := List.mem_map.1 this
      rw [← hee]
      exact hm e' he'
    refine ⟨_, rfl, ⟨⟨?_, ?_⟩, ?_, ?_⟩⟩
    · dsimp only
      rw [map_modify]; exact h.good.nodup
    · dsimp only
      rw [map_modify, List.length_modify]
      rcases h.good.table with ⟨h3, h4⟩ | h3
      · rw [h4] at h1; simp at h1
      · exact Or.inr h3
    · intro j m w' hj
      dsimp only at hj
      rw [List.getElem?_modify] at hj
      by_cases hij : i = j
      · subst hij
        rw [h1] at hj
        simp only [if_true, Option.map_eq_map, Option.map_some, Option.some.injEq, Prod.mk.injEq] at hj
        obtain ⟨rfl, rfl⟩ := hj
        exact ⟨[], ds, rfl, nofun⟩
      · have hj : s.syms[j]? = some (m, w') := by
          cases hs : s.syms[j]? with
          | none => rw [hs] at hj; cases hj
          | some e => rw [hs] at hj; simpa [hij] using hj
        obtain ⟨p, r, e, hp⟩ := h.some_ j m w' hj
        refine ⟨(n, v) :: p, r, by rw [e]; rfl, fun e' he' => ?_⟩
        rcases List.mem_cons.1 he' with rfl | he'
        · intro hnm
          have hnm : n = m := hnm
          subst hnm
          obtain ⟨hi1, hi2⟩ := List.getElem?_eq_some_iff.1 h1
          obtain ⟨hj1, hj2⟩ := List.getElem?_eq_some_iff.1 hj
          have := (List.Nodup.getElem_inj_iff h.good.nodup (i := i) (j := j) (hi := by simpa using hi1) (hj := by simpa using hj1)).1
            (by simp [hi2, hj2])
          exact hij this
        · exact hp e' he'
    · intro m hm e he
      have h0 := hmem m hm
      rcases List.mem_cons.1 he with rfl | he
      · exact h0 (n, w) (List.mem_of_getElem? h1)
      · exact h.none_ m h0 e he

theorem lookup_spec {V : Type} : ∀ {st : List (Scp V)} {ds : List (List (Str × V))}, List.Forall₂ Rel st ds → ∀ n,
    (lookup st n = some none ∧ ∀ v, ¬ Binds n v ds) ∨ ∃ v, lookup st n = some (some v) ∧ Binds n v ds
  | _, _, .nil, n => Or.inl ⟨rfl, fun v h => nomatch h⟩
  | _, _, .cons (a := s) (b := d) (l₁ := st) (l₂ := ds) h hs, n => by
    rw [lookup]
    rcases local_spec h.good n with ⟨h1, h2⟩ | ⟨i, w, h1, h2⟩
    · rw [h2]
      dsimp only
      have hd := h.none_ n h1
      rcases lookup_spec hs n with ⟨a, b⟩ | ⟨v, a, b⟩
      · refine Or.inl ⟨a, fun v hb => ?_⟩
        cases hb with
        | here p r e hp => exact hd (n, v) (by rw [e]; simp) rfl
        | outer _ hb => exact b v hb
      · exact Or.inr ⟨v, a, .outer hd b⟩
    · rw [h2]
      dsimp only
      rw [h1]
      obtain ⟨p, r, e, hp⟩ := h.some_ i n w h1
      exact Or.inr ⟨w, rfl, .here p r e hp⟩

theorem run_spec {V : Type} {st : List (Scp V)} {ds : List (List (Str × V))} (h : List.Forall₂ Rel st ds) (o : ScopeOp V) :
    ∃ st', o.run st = some st' ∧ List.Forall₂ Rel st' (ScopeOp.spec ds o) := by
  cases o with
  | push => exact ⟨_, rfl, .cons rel_create h⟩
  | pop =>
    cases h with
    | nil => exact ⟨_, rfl, .nil⟩
    | cons _ h => exact ⟨_, rfl, h⟩
  | define n v =>
    cases h with
    | nil => exact ⟨_, rfl, .nil⟩
    | cons h hs =>
      obtain ⟨s', h1, h2⟩ := rel_define h n v
      exact ⟨_, by rw [ScopeOp.run, h1]; rfl, .cons h2 hs⟩

theorem runs_spec {V : Type} : ∀ (os : List (ScopeOp V)) {st : List (Scp V)} {ds : List (List (Str × V))}, List.Forall₂ Rel st ds →
    ∃ st', ScopeOp.runs st os = some st' ∧ List.Forall₂ Rel st' (os.foldl ScopeOp.spec ds)
  | [], st, ds, h => ⟨st, rfl, h⟩
  | o :: os, st, ds, h => by
    obtain ⟨st1, h1, h2⟩ := run_spec h o
    obtain ⟨st2, h3, h4⟩ := runs_spec os h2
    exact ⟨st2, by rw [ScopeOp.runs, h1]; exact h3, h4⟩

theorem first_unique {V : Type} {n : Str} {v w : V} {r t : List (Str × V)} : ∀ p q : List (Str × V), (∀ e ∈ p, e.1 ≠ n) →
    (∀ e ∈ q, e.1 ≠ n) → p ++ (n, v) :: r = q ++ (n, w) :: t → v = w
  | [], [], _, _, e => by cases e; rfl
  | [], x :: q, _, hq, e => by cases e; exact absurd rfl (hq _ List.mem_cons_self)
  | x :: p, [], hp, _, e => by cases e; exact absurd rfl (hp _ List.mem_cons_self)
  | x :: p, y :: q, hp, hq, e =>
    first_unique p q (fun e h => hp e (List.mem_cons_of_mem _ h)) (fun e h => hq e (List.mem_cons_of_mem _ h)) (List.cons.inj e).2

end Sc

/-- C55: after any operations, which all end, a lookup ends and finds exactly the binding of the name. -/
theorem C55_lookup {V : Type} (os : List (ScopeOp V)) (n : Str) :
    ∃ st r, ScopeOp.runs [create] os = some st ∧ lookup st n = some r ∧
      ∀ v, r = some v ↔ Binds n v (os.foldl ScopeOp.spec [[]]) := by
  obtain ⟨st, h1, h2⟩ := Sc.runs_spec os (st := [create]) (ds := [[]]) (.cons Sc.rel_create .nil)
  have uniq : ∀ {ds : List (List (Str × V))} {v w : V}, Binds n v ds → Binds n w ds → v = w := by
    intro ds v w hv
    induction hv with
    | here p r e hp =>
      intro hw
      cases hw with
      | here q t e' hq =>
        exact Sc.first_unique p q hp hq (e.symm.trans e')
      | outer h _ => exact absurd rfl (h _ (by rw [e]; exact List.mem_append_right _ List.mem_cons_self))
    | outer h _ ih =>
      intro hw
      cases hw with
      | here q t e' hq => exact absurd rfl (h _ (by rw [e']; exact List.mem_append_right _ List.mem_cons_self))
      | outer _ hw => exact ih hw
  rcases Sc.lookup_spec h2 n with ⟨a, b⟩ | ⟨v, a, b⟩
  · exact ⟨st, none, h1, a, fun w => ⟨nofun, fun h => absurd h (b w)⟩⟩
  · exact ⟨st, some v, h1, a, fun w => ⟨fun h => by cases h; exact b, fun h => by rw [uniq h b]⟩⟩

example : (ScopeOp.runs [create] [.define (lit "a") 1, .define (lit "b") 2, .push, .define (lit "a") 3, .define (lit "a") 4]).bind
    (fun st => (lookup st (lit "a")).bind fun x => (lookup st (lit "b")).bind fun y => (lookup st (lit "c")).map fun z => (x, y, z)) =
    some (some 4, some 2, none) := by decide +kernel

end Verif.Props
