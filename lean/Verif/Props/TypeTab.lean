import Verif.Model.TypeTab
import Mathlib.Order.Lattice
import Mathlib.Data.Nat.Find
import Mathlib.Data.List.Basic
/-
The tables of types (claims C318 to C322).
-/
namespace Verif.Props

open Verif Verif.Str Verif.TypeTab

namespace Tt

variable {K V : Type} [DecidableEq K]

/-- The slots in the order of the probes. -/
def slot (cap : Nat) (h j : Nat) : Nat := (h + j) % cap

theorem slot_next {k h : Nat} (j : Nat) : (slot (2 ^ k) h j + 1) &&& (2 ^ k - 1) = slot (2 ^ k) h (j + 1) := by
  rw [Nat.and_two_pow_sub_one_eq_mod, slot, slot, Nat.mod_add_mod, Nat.add_assoc]

theorem slot_zero (k h : Nat) : h &&& (2 ^ k - 1) = slot (2 ^ k) h 0 := Nat.and_two_pow_sub_one_eq_mod h k

theorem slot_lt (k h j : Nat) : slot (2 ^ k) h j < 2 ^ k := Nat.mod_lt _ (Nat.two_pow_pos k)

theorem slot_surj {cap : Nat} (h x : Nat) (hx : x < cap) : ∃ j < cap, slot cap h j = x := by
  have hm := Nat.mod_lt h (show 0 < cap by omega)
  have e : h = cap * (h / cap) + h % cap := (Nat.div_add_mod h cap).symm
  by_cases hle : h % cap ≤ x
  · refine ⟨x - h % cap, by omega, ?_⟩
    rw [slot, show h + (x - h % cap) = x + cap * (h / cap) by omega, Nat.add_mul_mod_self_left, Nat.mod_eq_of_lt hx]
  · refine ⟨x + cap - h % cap, by omega, ?_⟩
    rw [slot, show h + (x + cap - h % cap) = x + cap * (h / cap + 1) by rw [Nat.mul_add]; omega,
      Nat.add_mul_mod_self_left, Nat.mod_eq_of_lt hx]

/-- The number of entries. -/
def used (cap : Nat) (t : Slots K V) : Nat := ((List.range cap).filter fun x => (t x).isSome).length

theorem used_succ (n : Nat) (t : Slots K V) : used (n + 1) t = used n t + if (t n).isSome then 1 else 0 := by
  unfold used
  rw [List.range_succ, List.filter_append, List.length_append, List.filter_cons, List.filter_nil]
  split <;> rfl

theorem used_none : ∀ n, used n (fun _ => none : Slots K V) = 0
  | 0 => rfl
  | n + 1 => by rw [used_succ, used_none n]; rfl

theorem used_upd (t : Slots K V) (x : Nat) (e : K × V) : ∀ cap : Nat,
    used cap (fun y => if y = x then some e else t y) = used cap t + if x < cap ∧ t x = none then 1 else 0
  | 0 => by
    have : ¬ (x < 0 ∧ t x = none) := fun h => Nat.not_lt_zero _ h.1
    rw [if_neg this]; rfl
  | n + 1 => by
    rw [used_succ, used_succ, used_upd t x e n]
    by_cases h : n = x
    · subst h
      cases ht : t n <;> simp
    · rw [if_neg h]
      have : (x < n + 1 ∧ t x = none) ↔ (x < n ∧ t x = none) := and_congr_left fun _ => by omega
      simp only [this]
      omega

theorem has_empty {cap : Nat} {t : Slots K V} (h : used cap t < cap) : ∃ x < cap, t x = none := by
  by_cases hn : ∃ x < cap, t x = none
  · exact hn
  · have : (List.range cap).filter (fun x => (t x).isSome) = List.range cap := by
      rw [List.filter_eq_self]
      intro x hx
      cases ht : t x with
      | none => exact absurd ⟨x, List.mem_range.1 hx, ht⟩ hn
      | some _ => rfl
    rw [used, this, List.length_range] at h
    exact absurd h (Nat.lt_irrefl _)

/-- A slot at which a search for the key ends. -/
def Stop (t : Slots K V) (k : K) (x : Nat) : Prop := t x = none ∨ ∃ v, t x = some (k, v)

theorem first_stop {m : Nat} {t : Slots K V} (h : used (2 ^ m) t < 2 ^ m) (k : K) (h0 : Nat) :
    ∃ j < 2 ^ m, Stop t k (slot (2 ^ m) h0 j) ∧ ∀ i < j, ¬ Stop t k (slot (2 ^ m) h0 i) := by
  obtain ⟨x, hx, hn⟩ := has_empty h
  obtain ⟨j, hj, e⟩ := slot_surj h0 x hx
  have hex : ∃ j, Stop t k (slot (2 ^ m) h0 j) := ⟨j, Or.inl (by rw [e]; exact hn)⟩
  classical
  refine ⟨Nat.find hex, ?_, Nat.find_spec hex, fun i hi => Nat.find_min hex hi⟩
  exact Nat.lt_of_le_of_lt (Nat.find_min' hex (Or.inl (by rw [e]; exact hn))) hj

theorem not_stop {t : Slots K V} {k : K} {x : Nat} (h : ¬ Stop t k x) : ∃ e, t x = some e ∧ e.1 ≠ k := by
  cases ht : t x with
  | none => exact absurd (Or.inl ht) h
  | some e =>
    refine ⟨e, rfl, fun q => h (Or.inr ⟨e.2, ?_⟩)⟩
    rw [ht, ← q]

theorem getLoop_spec {m : Nat} {t : Slots K V} {k : K} {h0 j : Nat} (hj : Stop t k (slot (2 ^ m) h0 j)) :
    ∀ (d i f : Nat), i + d = j → d < f → (∀ x, i ≤ x → x < j → ¬ Stop t k (slot (2 ^ m) h0 x)) →
      getLoop (2 ^ m - 1) t k f (slot (2 ^ m) h0 i) = some ((t (slot (2 ^ m) h0 j)).map Prod.snd)
  | 0, i, f + 1, hi, _, _ => by
    rw [Nat.add_zero] at hi
    subst hi
    rw [getLoop]
    rcases hj with h | ⟨v, h⟩
    · rw [h]; rfl
    · rw [h]; dsimp only; rw [if_pos rfl]; rfl
  | d + 1, i, f + 1, hi, hf, h => by
    obtain ⟨e, he, hne⟩ := not_stop (h i (Nat.le_refl _) (by omega))
    rw [getLoop, he]
    dsimp only
    rw [if_neg hne, slot_next]
    exact getLoop_spec hj d (i + 1) f (by omega) (by omega) fun x h1 h2 => h x (by omega) h2

theorem setLoop_spec {m : Nat} {t : Slots K V} {k : K} {v : V} {h0 j : Nat} (hj : Stop t k (slot (2 ^ m) h0 j)) :
    ∀ (d i f : Nat), i + d = j → d < f → (∀ x, i ≤ x → x < j → ¬ Stop t k (slot (2 ^ m) h0 x)) →
      setLoop (2 ^ m - 1) k v f t (slot (2 ^ m) h0 i) =
        some (fun x => if x = slot (2 ^ m) h0 j then some (k, v) else t x, (t (slot (2 ^ m) h0 j)).isNone)
  | 0, i, f + 1, hi, _, _ => by
    rw [Nat.add_zero] at hi
    subst hi
    rw [setLoop]
    rcases hj with h | ⟨v, h⟩
    · rw [h]; rfl
    · rw [h]; dsimp only; rw [if_pos rfl]; rfl
  | d + 1, i, f + 1, hi, hf, h => by
    obtain ⟨e, he, hne⟩ := not_stop (h i (Nat.le_refl _) (by omega))
    rw [setLoop, he]
    dsimp only
    rw [if_neg hne, slot_next]
    exact setLoop_spec hj d (i + 1) f (by omega) (by omega) fun x h1 h2 => h x (by omega) h2

theorem insLoop_spec {m : Nat} {t : Slots (Nat × Str) Nat} {k : Nat × Str} {v h0 j : Nat} (hj : t (slot (2 ^ m) h0 j) = none) :
    ∀ (d i f : Nat), i + d = j → d < f → (∀ x, i ≤ x → x < j → ¬ Stop t k (slot (2 ^ m) h0 x)) →
      insLoop (2 ^ m - 1) k v f t (slot (2 ^ m) h0 i) = some fun x => if x = slot (2 ^ m) h0 j then some (k, v) else t x
  | 0, i, f + 1, hi, _, _ => by
    rw [Nat.add_zero] at hi
    subst hi
    rw [insLoop, hj]
  | d + 1, i, f + 1, hi, hf, h => by
    obtain ⟨e, he, hne⟩ := not_stop (h i (Nat.le_refl _) (by omega))
    rw [insLoop, he]
    dsimp only
    rw [slot_next]
    exact insLoop_spec hj d (i + 1) f (by omega) (by omega) fun x h1 h2 => h x (by omega) h2

/-- Every entry is found from the hash value of its key. -/
def Inv (hash : K → Nat) (m : Nat) (t : Slots K V) : Prop :=
  ∀ x < 2 ^ m, ∀ k v, t x = some (k, v) → ∃ j < 2 ^ m, x = slot (2 ^ m) (hash k) j ∧ ∀ i < j, ¬ Stop t k (slot (2 ^ m) (hash k) i)

/-- The table has the entry. -/
def Has (m : Nat) (t : Slots K V) (k : K) (v : V) : Prop := ∃ x < 2 ^ m, t x = some (k, v)

theorem stop_iff {hash : K → Nat} {m : Nat} {t : Slots K V} (hi : Inv hash m t) {k : K} {j : Nat}
    (hs : Stop t k (slot (2 ^ m) (hash k) j)) (hf : ∀ i < j, ¬ Stop t k (slot (2 ^ m) (hash k) i)) (v : V) :
    Has m t k v ↔ t (slot (2 ^ m) (hash k) j) = some (k, v) := by
  constructor
  · rintro ⟨x, hx, h⟩
    obtain ⟨j', hj', rfl, h'⟩ := hi x hx k v h
    have : j' = j := by
      rcases Nat.lt_trichotomy j' j with q | q | q
      · exact absurd (Or.inr ⟨v, h⟩) (hf j' q)
      · exact q
      · exact absurd hs (h' j q)
    rw [← this]; exact h
  · exact fun h => ⟨_, slot_lt _ _ _, h⟩

theorem get_spec {hash : K → Nat} {m : Nat} {t : Slots K V} (hi : Inv hash m t) (hu : used (2 ^ m) t < 2 ^ m) (k : K) :
    ∃ r, getLoop (2 ^ m - 1) t k (2 ^ m) (hash k &&& (2 ^ m - 1)) = some r ∧ ∀ v, r = some v ↔ Has m t k v := by
  obtain ⟨j, hj, hs, hf⟩ := first_stop hu k (hash k)
  refine ⟨(t (slot (2 ^ m) (hash k) j)).map Prod.snd, ?_, fun v => ?_⟩
  · rw [slot_zero]
    exact getLoop_spec hs j 0 (2 ^ m) (Nat.zero_add j) hj fun x _ hx => hf x hx
  · rw [stop_iff hi hs hf v]
    rcases hs with h | ⟨w, h⟩
    · rw [h]; exact ⟨fun q => (by cases q), fun q => (by cases q)⟩
    · rw [h]
      exact ⟨fun q => by rw [show w = v from Option.some.inj q], fun q => by rw [show w = v from congrArg Prod.snd (Option.some.inj q)]; rfl⟩

/-- Writing at the place of the key. -/
theorem write_spec {hash : K → Nat} {m : Nat} {t : Slots K V} (hi : Inv hash m t) {k : K} {j : Nat} (hj : j < 2 ^ m)
    (hs : Stop t k (slot (2 ^ m) (hash k) j)) (hf : ∀ i < j, ¬ Stop t k (slot (2 ^ m) (hash k) i)) (v : V) :
    Inv hash m (fun x => if x = slot (2 ^ m) (hash k) j then some (k, v) else t x) ∧
    ∀ k' v', Has m (fun x => if x = slot (2 ^ m) (hash k) j then some (k, v) else t x) k' v' ↔ (if k' = k then v' = v else Has m t k' v') := by
  have keep : ∀ k' x, ¬ Stop t k' x → ¬ Stop (fun x => if x = slot (2 ^ m) (hash k) j then some (k, v) else t x) k' x := by
    intro k' x h q
    unfold Stop at q
    dsimp only at q
    by_cases hx : x = slot (2 ^ m) (hash k) j
    · rw [if_pos hx] at q
      rcases q with q | ⟨w, q⟩
      · cases q
      · have : k = k' := congrArg Prod.fst (Option.some.inj q)
        rw [hx, ← this] at h
        exact h hs
    · rw [if_neg hx] at q
      exact h q
  refine ⟨fun x hx k' v' h => ?_, fun k' v' => ?_⟩
  · dsimp only at h
    by_cases hx' : x = slot (2 ^ m) (hash k) j
    · rw [if_pos hx'] at h
      have : k = k' := congrArg Prod.fst (Option.some.inj h)
      subst this
      exact ⟨j, hj, hx', fun i hij => keep _ _ (hf i hij)⟩
    · rw [if_neg hx'] at h
      obtain ⟨j', hj', e, h'⟩ := hi x hx k' v' h
      exact ⟨j', hj', e, fun i hij => keep _ _ (h' i hij)⟩
  · by_cases hk : k' = k
    · subst hk
      rw [if_pos rfl]
      constructor
      · rintro ⟨x, hx, h⟩
        dsimp only at h
        by_cases hx' : x = slot (2 ^ m) (hash k') j
        · rw [if_pos hx'] at h
          exact (congrArg Prod.snd (Option.some.inj h)).symm
        · rw [if_neg hx'] at h
          have h1 := (stop_iff hi hs hf v').1 ⟨x, hx, h⟩
          obtain ⟨j', _, e, h'⟩ := hi x hx k' v' h
          rcases Nat.lt_trichotomy j' j with q | q | q
          · exact absurd (Or.inr ⟨v', by rw [← e]; exact h⟩) (hf j' q)
          · exact absurd (by rw [e, q]) hx'
          · exact absurd hs (h' j q)
      · rintro rfl
        exact ⟨_, slot_lt m (hash k') j, if_pos rfl⟩
    · rw [if_neg hk]
      constructor
      · rintro ⟨x, hx, h⟩
        dsimp only at h
        by_cases hx' : x = slot (2 ^ m) (hash k) j
        · rw [if_pos hx'] at h
          exact absurd (congrArg Prod.fst (Option.some.inj h)).symm hk
        · rw [if_neg hx'] at h
          exact ⟨x, hx, h⟩
      · rintro ⟨x, hx, h⟩
        refine ⟨x, hx, ?_⟩
        have hx' : x ≠ slot (2 ^ m) (hash k) j := by
          rintro rfl
          rcases hs with q | ⟨w, q⟩
          · rw [q] at h; cases h
          · rw [q] at h; exact hk (congrArg Prod.fst (Option.some.inj h)).symm
        dsimp only
        rw [if_neg hx']
        exact h

/-- A table in order. -/
structure Good (hash : K → Nat) (t : Tab K V) (m : Nat) : Prop where
  cap : t.cap = 2 ^ m
  big : 8 ≤ m
  inv : Inv hash m t.slots
  count : t.count = used (2 ^ m) t.slots
  load : t.count * 10 < t.cap * 7 + 10

theorem pow_big {m : Nat} (h : 8 ≤ m) : 256 ≤ 2 ^ m := Nat.pow_le_pow_right (by decide : 0 < 2) h

theorem put_spec {hash : K → Nat} {t : Tab K V} {m : Nat} (h : Good hash t m) (hl : t.count * 10 < t.cap * 7) (k : K) (v : V) :
    ∃ t', TypeTab.put hash t k v = some t' ∧ Good hash t' m ∧ t'.count ≤ t.count + 1 ∧
      ∀ k' v', Has m t'.slots k' v' ↔ (if k' = k then v' = v else Has m t.slots k' v') := by
  obtain ⟨hc, hb, hi, hn, _⟩ := h
  have hp := pow_big hb
  have hu : used (2 ^ m) t.slots < 2 ^ m := by omega
  obtain ⟨j, hj, hs, hf⟩ := first_stop hu k (hash k)
  have hw := write_spec hi hj hs hf v
  have e := setLoop_spec (v := v) hs j 0 (2 ^ m) (Nat.zero_add j) hj fun x _ hx => hf x hx
  have hup := used_upd t.slots (slot (2 ^ m) (hash k) j) (k, v) (2 ^ m)
  refine ⟨⟨2 ^ m, if (t.slots (slot (2 ^ m) (hash k) j)).isNone then t.count + 1 else t.count,
    fun x => if x = slot (2 ^ m) (hash k) j then some (k, v) else t.slots x⟩, by rw [TypeTab.put, hc, slot_zero, e]; rfl, ?_, ?_, hw.2⟩
  · refine ⟨rfl, hb, hw.1, ?_, ?_⟩
    · dsimp only
      rw [hup]
      cases ht : t.slots (slot (2 ^ m) (hash k) j) with
      | none =>
        have hh : slot (2 ^ m) (hash k) j < 2 ^ m ∧ (none : Option (K × V)) = none := ⟨slot_lt _ _ _, rfl⟩
        rw [if_pos hh, ← hn]
        rfl
      | some e' =>
        have hh : ¬ (slot (2 ^ m) (hash k) j < 2 ^ m ∧ some e' = none) := fun q => by cases q.2
        rw [if_neg hh, ← hn]
        rfl
    · dsimp only
      split <;> omega
  · dsimp only
    split <;> omega

theorem copy_spec {hash : K → Nat} {t : Tab K V} {m : Nat} (h : Good hash t m) : ∀ n ≤ 2 ^ m,
    ∃ t', copyLoop (setDepth hash 1) t.slots ⟨t.cap * 2, 0, fun _ => none⟩ n = some t' ∧ Good hash t' (m + 1) ∧
      t'.count ≤ used n t.slots ∧ ∀ k v, Has (m + 1) t'.slots k v ↔ ∃ x < n, t.slots x = some (k, v)
  | 0, _ => by
    refine ⟨_, rfl, ⟨by dsimp only; rw [h.cap, Nat.pow_succ], by have := h.big; omega, ?_, ?_, by dsimp only; omega⟩, Nat.le_refl _, ?_⟩
    · intro x _ k v q; cases q
    · exact (used_none _).symm
    · intro k v
      exact ⟨fun ⟨_, _, q⟩ => (by cases q), fun ⟨_, q, _⟩ => absurd q (Nat.not_lt_zero _)⟩
  | n + 1, hn => by
    obtain ⟨t', h1, h2, h3, h4⟩ := copy_spec h n (by omega)
    rw [copyLoop, h1]
    dsimp only
    have hus := used_succ n t.slots
    cases ht : t.slots n with
    | none =>
      refine ⟨t', rfl, h2, by rw [hus, ht]; exact h3, fun k v => ?_⟩
      rw [h4]
      constructor
      · rintro ⟨x, hx, q⟩; exact ⟨x, by omega, q⟩
      · rintro ⟨x, hx, q⟩
        refine ⟨x, ?_, q⟩
        have : x ≠ n := by rintro rfl; rw [ht] at q; cases q
        omega
    | some e =>
      have hmono : ∀ a b : Nat, used a t.slots ≤ used (a + b) t.slots := by
        intro a b
        induction b with
        | zero => exact Nat.le_refl _
        | succ b ih => rw [← Nat.add_assoc, used_succ]; omega
      have hle : used n t.slots ≤ t.count := by
        rw [h.count, show (2 : Nat) ^ m = n + (2 ^ m - n) by omega]
        exact hmono n _
      have hload : t'.count * 10 < t'.cap * 7 := by
        have := h.load
        have hc := h.cap
        have hc' := h2.cap
        have := pow_big h.big
        rw [Nat.pow_succ] at hc'
        omega
      obtain ⟨t'', g1, g2, g3, g4⟩ := put_spec h2 hload e.1 e.2
      refine ⟨t'', ?_, g2, ?_, fun k v => ?_⟩
      · show (if t'.count * 10 ≥ t'.cap * 7 then _ else TypeTab.put hash t' e.1 e.2) = _
        rw [if_neg (by omega), g1]
      · rw [hus, ht]
        show t''.count ≤ _ + 1
        omega
      · rw [g4 k v]
        by_cases hk : k = e.1
        · rw [if_pos hk]
          constructor
          · intro hv
            exact ⟨n, by omega, by rw [ht, hk, hv]⟩
          · rintro ⟨x, hx, q⟩
            obtain ⟨j, hj, ex, hf⟩ := h.inv x (by omega) k v q
            have hn' : t.slots n = some (k, e.2) := by rw [ht, hk]
            obtain ⟨j', hj', ex', hf'⟩ := h.inv n (by omega) k e.2 hn'
            have : j = j' := by
              rcases Nat.lt_trichotomy j j' with r | r | r
              · exact absurd (Or.inr ⟨v, by rw [← ex]; exact q⟩) (hf' j r)
              · exact r
              · exact absurd (Or.inr ⟨e.2, by rw [← ex']; exact hn'⟩) (hf j' r)
            rw [ex, this, ← ex', hn'] at q
            exact (congrArg Prod.snd (Option.some.inj q)).symm
        · rw [if_neg hk, h4]
          constructor
          · rintro ⟨x, hx, q⟩; exact ⟨x, by omega, q⟩
          · rintro ⟨x, hx, q⟩
            refine ⟨x, ?_, q⟩
            have : x ≠ n := by
              rintro rfl
              rw [ht] at q
              exact hk (by rw [Option.some.inj q])
            omega

theorem set_spec {hash : K → Nat} {t : Tab K V} {m : Nat} (h : Good hash t m) (k : K) (v : V) :
    ∃ t' m', set hash t k v = some t' ∧ Good hash t' m' ∧
      ∀ k' v', Has m' t'.slots k' v' ↔ (if k' = k then v' = v else Has m t.slots k' v') := by
  rw [TypeTab.set, setDepth]
  by_cases hl : t.count * 10 ≥ t.cap * 7
  · rw [if_pos hl]
    obtain ⟨t', h1, h2, h3, h4⟩ := copy_spec h (2 ^ m) (Nat.le_refl _)
    rw [h.cap] at h1 ⊢
    rw [h1]
    dsimp only
    have hload : t'.count * 10 < t'.cap * 7 := by
      have := h.load
      have hc := h.cap
      have hc' := h2.cap
      have := pow_big h.big
      have := h.count
      rw [Nat.pow_succ] at hc'
      omega
    obtain ⟨t'', g1, g2, _, g4⟩ := put_spec h2 hload k v
    refine ⟨t'', m + 1, g1, g2, fun k' v' => ?_⟩
    rw [g4, h4]
    rfl
  · rw [if_neg hl]
    obtain ⟨t'', g1, g2, _, g4⟩ := put_spec h (by omega) k v
    exact ⟨t'', m, g1, g2, g4⟩

/-- Several calls. -/
def sets (hash : K → Nat) : Tab K V → List (K × V) → Option (Tab K V)
  | t, [] => some t
  | t, (k, v) :: r =>
    match set hash t k v with
    | none => none
    | some t => sets hash t r

/-- What was set last. -/
def latest (l : List (K × V)) (k : K) : Option V := (l.reverse.find? fun e => e.1 = k).map Prod.snd

theorem latest_cons (e : K × V) (l : List (K × V)) (k : K) :
    latest (e :: l) k = (latest l k).or (if e.1 = k then some e.2 else none) := by
  unfold latest
  rw [List.reverse_cons, List.find?_append, List.find?_cons, List.find?_nil]
  by_cases h : e.1 = k
  · rw [if_pos h, show decide (e.1 = k) = true from decide_eq_true h]
    cases (l.reverse.find? fun e => decide (e.1 = k)) <;> rfl
  · rw [if_neg h, show decide (e.1 = k) = false from decide_eq_false h]
    cases (l.reverse.find? fun e => decide (e.1 = k)) <;> rfl

theorem sets_spec (hash : K → Nat) : ∀ (l : List (K × V)) {t : Tab K V} {m : Nat}, Good hash t m →
    ∃ t' m', sets hash t l = some t' ∧ Good hash t' m' ∧
      ∀ k v, Has m' t'.slots k v ↔ (latest l k = some v ∨ latest l k = none ∧ Has m t.slots k v)
  | [], t, m, h => ⟨t, m, rfl, h, fun k v => ⟨fun q => Or.inr ⟨rfl, q⟩, fun q => q.elim (fun q => by cases q) And.right⟩⟩
  | (k, v) :: l, t, m, h => by
    obtain ⟨t1, m1, e1, g1, s1⟩ := set_spec h k v
    obtain ⟨t2, m2, e2, g2, s2⟩ := sets_spec hash l g1
    refine ⟨t2, m2, by rw [sets, e1]; exact e2, g2, fun k' v' => ?_⟩
    rw [s2, s1, latest_cons]
    cases hl : latest l k' with
    | some w => simp
    | none =>
      dsimp only
      by_cases hk : k' = k
      · subst hk
        simp [eq_comm]
      · have hk' : ¬ k = k' := fun q => hk q.symm
        simp [if_neg hk, if_neg hk']

theorem good_create (hash : K → Nat) : Good hash (create : Tab K V) 8 :=
  ⟨rfl, Nat.le_refl _, fun _ _ _ _ q => (by cases q), (used_none _).symm, (by decide : 0 * 10 < 256 * 7 + 10)⟩

end Tt

open Tt

/-! ### C318: the types of nodes -/

/-- C318: after any calls of `typetable_set`, `typetable_get` gives what was set last for the node, and nothing for others. All
loops end, and no growth happens within a growth. It holds for any hash function. -/
theorem C318_table {K V : Type} [DecidableEq K] (hash : K → Nat) (l : List (K × V)) :
    ∃ t, sets hash create l = some t ∧ ∀ k, get hash t k = some (latest l k) := by
  obtain ⟨t, m, e, g, s⟩ := sets_spec hash l (good_create hash)
  refine ⟨t, e, fun k => ?_⟩
  have hp := pow_big g.big
  have hu : used (2 ^ m) t.slots < 2 ^ m := by
    have := g.load; have := g.cap; have := g.count; omega
  obtain ⟨r, hr, hv⟩ := get_spec g.inv hu k
  rw [TypeTab.get, g.cap, hr]
  congr 1
  cases hl : latest l k with
  | some v => exact (hv v).2 ((s k v).2 (Or.inl hl))
  | none =>
    cases r with
    | none => rfl
    | some v =>
      have := (s k v).1 ((hv v).1 rfl)
      rw [hl] at this
      rcases this with q | ⟨_, x, _, q⟩
      · cases q
      · cases q

/-- The hash function of the compiler among them. -/
theorem C318_pointers {V : Type} (l : List (Nat × V)) :
    ∃ t, sets hashPtr create l = some t ∧ ∀ k, get hashPtr t k = some (latest l k) := C318_table hashPtr l

example : hashPtr 0x7f0010 < 2 ^ 32 := by decide +kernel
example : latest [(1, 'a'), (2, 'b'), (1, 'c')] 1 = some 'c' := by decide +kernel

/-! ### C319, C320: the pool -/

namespace Tt

/-- The pool and its index agree. -/
structure Fits' (p : Pool) : Prop where
  inv : Inv typeHash 13 p.slots
  used : used (2 ^ 13) p.slots ≤ p.types.length
  size : p.types.length ≤ 4096
  key : ∀ k i, Has 13 p.slots k i → p.types[i]? = some k

theorem find_spec {p : Pool} (h : Fits' p) (k : Nat × Str) : ∃ r, poolFind p k = some r ∧ ∀ v, r = some v ↔ Has 13 p.slots k v :=
  get_spec h.inv (Nat.lt_of_le_of_lt h.used (Nat.lt_of_le_of_lt h.size (by decide))) k

/-- What one call of a constructor does. -/
theorem intern_spec {p : Pool} (h : Fits' p) (k : Nat × Str) :
    (∃ i, Has 13 p.slots k i ∧ intern p k = .ok (p, i)) ∨
    ((∀ i, ¬ Has 13 p.slots k i) ∧ p.types.length = 4096 ∧ intern p k = .exit) ∨
    ((∀ i, ¬ Has 13 p.slots k i) ∧ p.types.length < 4096 ∧ ∃ q, intern p k = .ok (q, p.types.length) ∧ Fits' q ∧ q.types = p.types ++ [k] ∧
      ∀ k' v', Has 13 q.slots k' v' ↔ (if k' = k then v' = p.types.length else Has 13 p.slots k' v')) := by
  obtain ⟨r, hr, hv⟩ := find_spec h k
  cases r with
  | some i =>
    refine Or.inl ⟨i, (hv i).1 rfl, ?_⟩
    rw [intern, hr]
  | none =>
    have hno : ∀ i, ¬ Has 13 p.slots k i := fun i q => by cases (hv i).2 q
    right
    have hsz := h.size
    by_cases hfull : p.types.length = 4096
    · refine Or.inl ⟨hno, hfull, ?_⟩
      rw [intern, hr]
      dsimp only
      rw [alloc, if_pos (show poolCap ≤ p.types.length by rw [hfull]; exact Nat.le_refl _)]
    · right
      have hlt : p.types.length < 4096 := by omega
      have hu : used (2 ^ 13) p.slots < 2 ^ 13 := Nat.lt_of_le_of_lt h.used (Nat.lt_trans hlt (by decide))
      obtain ⟨j, hj, hs, hf⟩ := first_stop hu k (typeHash k)
      have hs' : p.slots (slot (2 ^ 13) (typeHash k) j) = none := by
        rcases hs with q | ⟨v, q⟩
        · exact q
        · exact absurd ⟨_, slot_lt _ _ _, q⟩ (hno v)
      have e := insLoop_spec (v := p.types.length) hs' j 0 (2 ^ 13) (Nat.zero_add j) hj fun x _ hx => hf x hx
      have hw := write_spec h.inv hj hs hf p.types.length
      refine ⟨hno, hlt, ⟨p.types ++ [k], fun x => if x = slot (2 ^ 13) (typeHash k) j then some (k, p.types.length) else p.slots x⟩, ?_,
        ⟨hw.1, ?_, ?_, ?_⟩, rfl, hw.2⟩
      · rw [intern, hr]
        dsimp only
        rw [alloc, if_neg (show ¬ poolCap ≤ p.types.length from Nat.not_le.2 hlt)]
        dsimp only
        rw [show hashCap = 2 ^ 13 from rfl, slot_zero, e]
      · have := used_upd p.slots (slot (2 ^ 13) (typeHash k) j) (k, p.types.length) (2 ^ 13)
        rw [if_pos ⟨slot_lt _ _ _, hs'⟩] at this
        dsimp only
        rw [this, List.length_append]
        exact Nat.succ_le_succ h.used
      · dsimp only
        rw [List.length_append]
        exact hlt
      · intro k' i q
        have q := (hw.2 k' i).1 q
        dsimp only
        by_cases hk : k' = k
        · rw [if_pos hk] at q
          rw [q, hk, List.getElem?_concat_length]
        · rw [if_neg hk] at q
          have h1 := h.key k' i q
          rw [List.getElem?_append_left (List.getElem?_eq_some_iff.1 h1).1]
          exact h1

theorem fits_empty : Fits' emptyPool :=
  ⟨fun _ _ _ _ q => (by cases q), Nat.le_of_eq (used_none _), Nat.zero_le _, fun _ _ ⟨_, _, q⟩ => (by cases q)⟩

theorem fresh_spec {p : Pool} (h : Fits' p) (k : Nat × Str) :
    (p.types.length = 4096 ∧ alloc p k = .exit) ∨
    (p.types.length < 4096 ∧ alloc p k = .ok (⟨p.types ++ [k], p.slots⟩, p.types.length) ∧ Fits' ⟨p.types ++ [k], p.slots⟩) := by
  have hsz := h.size
  by_cases hfull : p.types.length = 4096
  · exact Or.inl ⟨hfull, if_pos (show poolCap ≤ p.types.length by rw [hfull]; exact Nat.le_refl _)⟩
  · have hlt : p.types.length < 4096 := by omega
    refine Or.inr ⟨hlt, if_neg (show ¬ poolCap ≤ p.types.length from Nat.not_le.2 hlt), h.inv, ?_, ?_, ?_⟩
    · dsimp only
      rw [List.length_append]
      exact Nat.le_succ_of_le h.used
    · dsimp only
      rw [List.length_append]
      exact hlt
    · intro k' i q
      have h1 := h.key k' i q
      dsimp only
      rw [List.getElem?_append_left (List.getElem?_eq_some_iff.1 h1).1]
      exact h1

def Op.key : Op → Nat × Str
  | .intern k => k
  | .fresh k => k

/-- The number of types that the operations need beyond those known. -/
def need : List (Nat × Str) → List Op → Nat
  | _, [] => 0
  | known, .fresh _ :: r => 1 + need known r
  | known, .intern k :: r => if k ∈ known then need known r else 1 + need (k :: known) r

/-- No type given later is an old one, unless it is found in the index. -/
theorem run_spec : ∀ (os : List Op) (p : Pool) (known : List (Nat × Str)), Fits' p → (∀ k, k ∈ known ↔ ∃ i, Has 13 p.slots k i) →
    (4096 < p.types.length + need known os ∧ run p os = .exit) ∨
    (p.types.length + need known os ≤ 4096 ∧ ∃ q is, run p os = .ok (q, is) ∧ Fits' q ∧ os.length = is.length ∧
      (∀ k v, Has 13 p.slots k v → Has 13 q.slots k v) ∧ p.types <+: q.types ∧
      (∀ (a : Nat) o i, os[a]? = some o → is[a]? = some i → q.types[i]? = some (Op.key o)) ∧
      (∀ (a : Nat) k i, os[a]? = some (.intern k) → is[a]? = some i → Has 13 q.slots k i))
  | [], p, known, h, _ => by
    refine Or.inr ⟨h.size, p, [], rfl, h, rfl, fun _ _ q => q, List.prefix_rfl, ?_, ?_⟩ <;> intro a _ _ q <;> cases q
  | .fresh k :: r, p, known, h, hk => by
    rw [need, run, step]
    rcases fresh_spec h k with ⟨h1, h2⟩ | ⟨h1, h2, h3⟩
    · rw [h2]
      exact Or.inl ⟨by omega, rfl⟩
    · rw [h2]
      dsimp only
      have hlen : (p.types ++ [k]).length = p.types.length + 1 := by rw [List.length_append]; rfl
      rcases run_spec r ⟨p.types ++ [k], p.slots⟩ known h3 hk with ⟨g1, g2⟩ | ⟨g1, q, is, g2, g3, g4, g5, g6, g7, g8⟩
      · rw [g2]
        dsimp only at g1
        exact Or.inl ⟨by omega, rfl⟩
      · rw [g2]
        dsimp only at g1 g6
        refine Or.inr ⟨by omega, q, p.types.length :: is, rfl, g3, congrArg (· + 1) g4, g5, (List.prefix_append _ _).trans g6, ?_, ?_⟩
        · intro a o i ho hi
          cases a with
          | zero =>
            cases ho; cases hi
            obtain ⟨z, hz⟩ := g6
            rw [← hz, List.getElem?_append_left (by omega), List.getElem?_concat_length]
            rfl
          | succ a => exact g7 a o i ho hi
        · intro a k' i ho hi
          cases a with
          | zero => cases ho
          | succ a => exact g8 a k' i ho hi
  | .intern k :: r, p, known, h, hk => by
    rw [need, run, step]
    rcases intern_spec h k with ⟨i, h1, h2⟩ | ⟨h0, h1, h2⟩ | ⟨h0, h1, p', h2, h3, h4, h5⟩
    · rw [h2, if_pos ((hk k).2 ⟨i, h1⟩)]
      dsimp only
      rcases run_spec r p known h hk with ⟨g1, g2⟩ | ⟨g1, q, is, g2, g3, g4, g5, g6, g7, g8⟩
      · rw [g2]; exact Or.inl ⟨g1, rfl⟩
      · rw [g2]
        refine Or.inr ⟨g1, q, i :: is, rfl, g3, congrArg (· + 1) g4, g5, g6, ?_, ?_⟩
        · intro a o i' ho hi
          cases a with
          | zero =>
            cases ho; cases hi
            exact g3.key k i (g5 k i h1)
          | succ a => exact g7 a o i' ho hi
        · intro a k' i' ho hi
          cases a with
          | zero => cases ho; cases hi; exact g5 k i h1
          | succ a => exact g8 a k' i' ho hi
    · rw [h2, if_neg (fun q => (hk k).1 q |>.elim h0)]
      exact Or.inl ⟨by omega, rfl⟩
    · rw [h2, if_neg (fun q => (hk k).1 q |>.elim h0)]
      dsimp only
      have hlen : p'.types.length = p.types.length + 1 := by rw [h4, List.length_append]; rfl
      have hk' : ∀ k', k' ∈ k :: known ↔ ∃ i, Has 13 p'.slots k' i := by
        intro k'
        by_cases hkk : k' = k
        · subst hkk
          exact ⟨fun _ => ⟨p.types.length, (h5 k' _).2 (by rw [if_pos rfl])⟩, fun _ => List.mem_cons_self⟩
        · rw [List.mem_cons, hk k']
          constructor
          · rintro (q | ⟨i, q⟩)
            · exact absurd q hkk
            · exact ⟨i, (h5 k' i).2 (by rw [if_neg hkk]; exact q)⟩
          · rintro ⟨i, q⟩
            have q := (h5 k' i).1 q
            rw [if_neg hkk] at q
            exact Or.inr ⟨i, q⟩
      have hnew : Has 13 p'.slots k p.types.length := (h5 k _).2 (by rw [if_pos rfl])
      rcases run_spec r p' (k :: known) h3 hk' with ⟨g1, g2⟩ | ⟨g1, q, is, g2, g3, g4, g5, g6, g7, g8⟩
      · rw [g2]; exact Or.inl ⟨by omega, rfl⟩
      · rw [g2]
        refine Or.inr ⟨by omega, q, p.types.length :: is, rfl, g3, congrArg (· + 1) g4, ?_, ?_, ?_, ?_⟩
        · intro k' v' hh
          refine g5 k' v' ((h5 k' v').2 ?_)
          by_cases hkk : k' = k
          · subst hkk; exact absurd hh (h0 v')
          · rw [if_neg hkk]; exact hh
        · rw [h4] at g6
          exact (List.prefix_append _ _).trans g6
        · intro a o i ho hi
          cases a with
          | zero => cases ho; cases hi; exact g3.key k _ (g5 k _ hnew)
          | succ a => exact g7 a o i ho hi
        · intro a k' i ho hi
          cases a with
          | zero => cases ho; cases hi; exact g5 k _ hnew
          | succ a => exact g8 a k' i ho hi

theorem has_unique {hash : K → Nat} {m : Nat} {t : Slots K V} (hi : Inv hash m t) {k : K} {v w : V} (h1 : Has m t k v) (h2 : Has m t k w) : v = w := by
  obtain ⟨x, hx, q⟩ := h1
  obtain ⟨y, hy, r⟩ := h2
  obtain ⟨j, _, ex, hf⟩ := hi x hx k v q
  obtain ⟨j', _, ey, hf'⟩ := hi y hy k w r
  have : j = j' := by
    rcases Nat.lt_trichotomy j j' with s | s | s
    · exact absurd (Or.inr ⟨v, by rw [← ex]; exact q⟩) (hf' j s)
    · exact s
    · exact absurd (Or.inr ⟨w, by rw [← ey]; exact r⟩) (hf j' s)
  rw [ex, this, ← ey, r] at q
  exact (congrArg Prod.snd (Option.some.inj q)).symm

end Tt

/-- C319: the constructors of types always end; as long as the pool lasts, they give the same type for the same kind and name, a different one
otherwise, and each has the kind and name asked for. -/
theorem C319_shared (os : List Op) :
    run emptyPool os = .exit ∨
    ∃ q is, run emptyPool os = .ok (q, is) ∧ os.length = is.length ∧
      (∀ (a : Nat) o i, os[a]? = some o → is[a]? = some i → q.types[i]? = some (Op.key o)) ∧
      (∀ (a b : Nat) k l i j, os[a]? = some (.intern k) → os[b]? = some (.intern l) → is[a]? = some i → is[b]? = some j → (i = j ↔ k = l)) := by
  rcases run_spec os emptyPool [] fits_empty (fun k => ⟨fun q => (by cases q), fun ⟨_, _, _, q⟩ => (by cases q)⟩) with
    ⟨_, h⟩ | ⟨_, q, is, h1, h2, h3, _, _, h6, h7⟩
  · exact Or.inl h
  · refine Or.inr ⟨q, is, h1, h3, h6, fun a b k l i j ha hb hi hj => ⟨fun e => ?_, fun e => ?_⟩⟩
    · have e1 := h6 a _ i ha hi
      have e2 := h6 b _ j hb hj
      rw [e, e2] at e1
      exact (Option.some.inj e1).symm
    · have e1 := h7 a k i ha hi
      have e2 := h7 b l j hb hj
      rw [← e] at e2
      exact has_unique h2.inv e1 e2

/-- C320: the pool of types is large enough for the types of a program, of which there are fewer than 4096. -/
def C320_statement : Prop :=
  ∀ (os : List Op) (l : List (Nat × Str)), l.length ≤ 4096 → (∀ o ∈ os, Op.key o ∈ l) → ∃ q is, run emptyPool os = .ok (q, is)

namespace Tt

theorem need_fresh (k : Nat × Str) (known : List (Nat × Str)) : ∀ n, need known (List.replicate n (.fresh k)) = n
  | 0 => rfl
  | n + 1 => by rw [List.replicate_succ, need, need_fresh k known n]; omega

end Tt

/-- A program with 4097 ranges; they all have one type. -/
theorem C320_witness : run emptyPool (List.replicate 4097 (.fresh (1, lit "Range<int>"))) = .exit := by
  rcases run_spec (List.replicate 4097 (.fresh (1, lit "Range<int>"))) emptyPool [] fits_empty
    (fun k => ⟨fun q => (by cases q), fun ⟨_, _, _, q⟩ => (by cases q)⟩) with ⟨_, h⟩ | ⟨h, _⟩
  · exact h
  · rw [need_fresh] at h
    exact absurd h (by decide)

theorem C320_fails : ¬ C320_statement := by
  intro h
  obtain ⟨q, is, e⟩ := h (List.replicate 4097 (.fresh (1, lit "Range<int>"))) [(1, lit "Range<int>")] (by decide) (fun o ho => by
    rw [List.eq_of_mem_replicate ho]
    exact List.mem_cons_self)
  rw [C320_witness] at e
  cases e

/-- C320 exactly: the pool is exhausted if and only if the different interned types and the map literals and ranges, each as often as they
are resolved, are more than 4096. -/
theorem C320_partial (os : List Op) :
    (4096 < need [] os → run emptyPool os = .exit) ∧ (need [] os ≤ 4096 → ∃ q is, run emptyPool os = .ok (q, is)) := by
  have h0 : emptyPool.types.length = 0 := rfl
  rcases run_spec os emptyPool [] fits_empty (fun k => ⟨fun q => (by cases q), fun ⟨_, _, _, q⟩ => (by cases q)⟩) with
    ⟨h1, h2⟩ | ⟨h1, q, is, h2, _⟩
  · rw [h0, Nat.zero_add] at h1
    exact ⟨fun _ => h2, fun q => absurd q (Nat.not_le.2 h1)⟩
  · rw [h0, Nat.zero_add] at h1
    exact ⟨fun q => absurd q (Nat.not_lt.2 h1), fun _ => ⟨q, is, h2⟩⟩

example : need [] [.intern (8, lit "int"), .fresh (9, lit "map"), .intern (8, lit "int"), .fresh (9, lit "map")] = 3 := by decide +kernel

/-! ### C321: the buffers of texts -/

/-- C321: a text that `type_name` has returned is intact for three more calls of its kind; the fourth replaces it. -/
theorem C321_ring (r : Ring) (hr : r.slot < 4) (s : Str) (l : List Str) :
    (l.length < 4 → ((r.call s).2.calls l).bufs (r.call s).1 = s) ∧
    (∀ u, l.length = 3 → ((r.call s).2.calls (l ++ [u])).bufs (r.call s).1 = u) := by
  obtain ⟨b, n⟩ := r
  dsimp only at hr
  have hn : n = 0 ∨ n = 1 ∨ n = 2 ∨ n = 3 := by omega
  constructor
  · intro hl
    match l, hl with
    | [], _ => rcases hn with rfl | rfl | rfl | rfl <;> simp [Ring.call, Ring.calls]
    | [a], _ => rcases hn with rfl | rfl | rfl | rfl <;> simp [Ring.call, Ring.calls]
    | [a, c], _ => rcases hn with rfl | rfl | rfl | rfl <;> simp [Ring.call, Ring.calls]
    | [a, c, d], _ => rcases hn with rfl | rfl | rfl | rfl <;> simp [Ring.call, Ring.calls]
    | a :: c :: d :: e :: l', h => exact absurd h (by simp only [List.length_cons]; omega)
  · intro u hl
    match l, hl with
    | [a, c, d], _ => rcases hn with rfl | rfl | rfl | rfl <;> simp [Ring.call, Ring.calls]

example : ((⟨fun _ => [], 2⟩ : Ring).call (lit "[int]")).1 = 2 := rfl

/-! ### C322: texts of types -/

/-- C322: arrays of different elements have different texts. -/
def C322_statement : Prop := ∀ a b : Str, typeName (.array a) = typeName (.array b) → a = b

namespace Tt

def longName (c : Str) : Str := List.replicate 126 (65 : Byte) ++ c

theorem cut_long (c : Str) : typeName (.array (longName c)) = lit "[" ++ List.replicate 126 (65 : Byte) := by
  show ((lit "[" ++ (List.replicate 126 (65 : Byte) ++ c) ++ lit "]")).take 127 = _
  rw [List.append_assoc, List.append_assoc, ← List.append_assoc (lit "[")]
  exact List.take_left' rfl

end Tt

theorem C322_witness : typeName (.array (longName (lit "B"))) = typeName (.array (longName (lit "C"))) := (cut_long _).trans (cut_long _).symm

theorem C322_fails : ¬ C322_statement := fun h => by
  have := List.append_cancel_left (h _ _ C322_witness)
  exact absurd this (by decide)

/-- C322 for texts of up to 127 bytes, which are whole; longer ones never are. -/
theorem C322_partial (a : Str) :
    (a.length ≤ 125 → typeName (.array a) = lit "[" ++ a ++ lit "]") ∧ (125 < a.length → (typeName (.array a)).length = 127) ∧
    (a.length ≤ 126 ↔ typeName (.pointer a) = lit "^" ++ a) ∧
    (∀ b : Str, a.length ≤ 125 → b.length ≤ 125 → typeName (.array a) = typeName (.array b) → a = b) := by
  have hl : ∀ a : Str, (lit "[" ++ a ++ lit "]").length = a.length + 2 := fun a => by
    rw [List.length_append, List.length_append]; show 1 + a.length + 1 = _; omega
  have hw : ∀ a : Str, a.length ≤ 125 → typeName (.array a) = lit "[" ++ a ++ lit "]" := fun a h =>
    List.take_of_length_le (by rw [hl]; omega)
  refine ⟨hw a, fun h => ?_, ⟨fun h => ?_, fun h => ?_⟩, fun b ha hb h => ?_⟩
  · show (List.take 127 _).length = 127
    rw [List.length_take, hl]
    omega
  · exact List.take_of_length_le (by rw [List.length_append]; show 1 + a.length ≤ 127; omega)
  · have := congrArg List.length h
    have h2 : (typeName (.pointer a)).length ≤ 127 := List.length_take_le _ _
    rw [this, List.length_append] at h2
    have h2 : 1 + a.length ≤ 127 := h2
    omega
  · rw [hw a ha, hw b hb] at h
    exact List.append_cancel_left (List.append_cancel_right h)

example : typeName (.map (lit "string") (lit "[int]")) = lit "map[string:[int]]" := by decide +kernel

end Verif.Props
