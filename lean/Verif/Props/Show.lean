import Verif.Model.Show
import Verif.Props.Interp
import Batteries.Data.List.Perm
/-
Printed arrays, maps, structs and pointers (claims C307 to C310).
-/
namespace Verif.Props

open Verif Verif.Str Verif.Show

namespace Sv

/-! ### Numbers -/

/-- The value of a numeral. -/
def valueOf (b : Nat) (s : Str) : Nat := s.foldl (fun a c => b * a + (if c.toNat < 58 then c.toNat - 48 else c.toNat - 87)) 0

theorem digit_val : ∀ d : Fin 16, (if (digit d.val).toNat < 58 then (digit d.val).toNat - 48 else (digit d.val).toNat - 87) = d.val := by
  decide

/-- Digits and the minus sign. -/
def isNum (c : Byte) : Bool := (48 ≤ c.toNat && c.toNat ≤ 57) || (97 ≤ c.toNat && c.toNat ≤ 102) || c.toNat == 45

theorem digit_num : ∀ d : Fin 16, isNum (digit d.val) = true ∧ digit d.val ≠ 45 := by decide

theorem num_small (b n : Nat) (h : n < b) : num b n = [digit n] := by
  rw [num, dif_pos (Or.inl h)]

theorem num_big (b n : Nat) (hb : 2 ≤ b) (h : b ≤ n) : num b n = num b (n / b) ++ [digit (n % b)] := by
  rw [num, dif_neg (by omega)]

theorem num_spec (b : Nat) (hb : 2 ≤ b) (hb' : b ≤ 16) : ∀ m n, n < m →
    valueOf b (num b n) = n ∧ (∀ c ∈ num b n, isNum c = true ∧ c ≠ 45) ∧ num b n ≠ []
  | 0, _, h => absurd h (Nat.not_lt_zero _)
  | m + 1, n, h => by
    by_cases hn : n < b
    · rw [num_small b n hn]
      have hd := digit_val ⟨n, by omega⟩
      refine ⟨?_, fun c hc => ?_, by intro e; cases e⟩
      · simp only [valueOf, List.foldl_cons, List.foldl_nil, hd, Nat.mul_zero, Nat.zero_add]
      · rw [List.mem_singleton.1 hc]; exact digit_num ⟨n, by omega⟩
    · have hn : b ≤ n := Nat.le_of_not_lt hn
      have hlt : n / b < n := Nat.div_lt_self (by omega) (by omega)
      obtain ⟨h1, h2, h3⟩ := num_spec b hb hb' m (n / b) (by omega)
      have hm : n % b < b := Nat.mod_lt _ (by omega)
      have hd := digit_val ⟨n % b, by omega⟩
      rw [num_big b n hb hn]
      refine ⟨?_, fun c hc => ?_, by intro e; exact h3 (List.append_eq_nil_iff.1 e).1⟩
      · rw [valueOf, List.foldl_append]
        have : List.foldl (fun a c => b * a + (if c.toNat < 58 then c.toNat - 48 else c.toNat - 87)) 0 (num b (n / b)) = n / b := h1
        rw [this]
        simp only [List.foldl_cons, List.foldl_nil, hd]
        exact Nat.div_add_mod n b
      · rcases List.mem_append.1 hc with hc | hc
        · exact h2 c hc
        · rw [List.mem_singleton.1 hc]; exact digit_num ⟨n % b, by omega⟩

theorem num_inj {b : Nat} (hb : 2 ≤ b) (hb' : b ≤ 16) {n m : Nat} (h : num b n = num b m) : n = m := by
  have h1 := (num_spec b hb hb' (n + 1) n (by omega)).1
  have h2 := (num_spec b hb hb' (m + 1) m (by omega)).1
  rw [← h1, h, h2]

theorem num_all (b : Nat) (hb : 2 ≤ b) (hb' : b ≤ 16) (n : Nat) :
    (∀ c ∈ num b n, isNum c = true ∧ c ≠ 45) ∧ num b n ≠ [] := (num_spec b hb hb' (n + 1) n (by omega)).2

theorem dec_num (z : Int) : (∀ c ∈ dec z, isNum c = true) ∧ dec z ≠ [] := by
  unfold dec
  obtain ⟨h1, h2⟩ := num_all 10 (by omega) (by omega) z.natAbs
  split
  · refine ⟨fun c hc => ?_, by intro e; cases e⟩
    rcases List.mem_cons.1 hc with rfl | hc
    · decide
    · exact (h1 c hc).1
  · exact ⟨fun c hc => (h1 c hc).1, h2⟩

theorem dec_inj {z y : Int} (h : dec z = dec y) : z = y := by
  have key : ∀ n m : Nat, (45 : Byte) :: num 10 n ≠ num 10 m := by
    intro n m e
    have := (num_all 10 (by omega) (by omega) m).1 45 (by rw [← e]; exact List.mem_cons_self)
    exact this.2 rfl
  unfold dec at h
  split at h <;> split at h
  · have := num_inj (by omega) (by omega) (List.cons.inj h).2; omega
  · exact absurd h (key _ _)
  · exact absurd h.symm (key _ _)
  · have := num_inj (by omega) (by omega) h; omega

/-! ### Unique reading -/

/-- What comes after a value: the end, or one of `,`, `}` and `:`. -/
def Sep (r : Str) : Prop := ∀ c, r.head? = some c → c = 44 ∨ c = 125 ∨ c = 58

/-- What a value begins with. -/
def Starts (s : Str) : Prop := ∃ c r, s = c :: r ∧ c ≠ 44 ∧ c ≠ 125 ∧ c ≠ 58

theorem span_unique (p : Byte → Bool) : ∀ {s s' r r' : Str}, (∀ c ∈ s, p c = true) → (∀ c ∈ s', p c = true) →
    (∀ c, r.head? = some c → p c = false) → (∀ c, r'.head? = some c → p c = false) → s ++ r = s' ++ r' → s = s' ∧ r = r'
  | [], [], _, _, _, _, _, _, e => ⟨rfl, e⟩
  | [], c :: s', r, r', _, h2, h3, _, e => by
    have := h3 c (by rw [show r = c :: (s' ++ r') from e]; rfl)
    rw [h2 c List.mem_cons_self] at this
    cases this
  | c :: s, [], r, r', h1, _, _, h4, e => by
    have := h4 c (by rw [← show c :: (s ++ r) = r' from e]; rfl)
    rw [h1 c List.mem_cons_self] at this
    cases this
  | c :: s, c' :: s', r, r', h1, h2, h3, h4, e => by
    have e1 : c = c' := (List.cons.inj e).1
    obtain ⟨a, b⟩ := span_unique p (fun x hx => h1 x (List.mem_cons_of_mem _ hx))
      (fun x hx => h2 x (List.mem_cons_of_mem _ hx)) h3 h4 (List.cons.inj e).2
    exact ⟨by rw [e1, a], b⟩

theorem sep_num {r : Str} (h : Sep r) : ∀ c, r.head? = some c → isNum c = false := by
  intro c hc
  rcases h c hc with rfl | rfl | rfl <;> decide

/-- Text without the three separators. -/
def noSep (c : Byte) : Bool := c != 44 && c != 125 && c != 58

theorem sep_noSep {r : Str} (h : Sep r) : ∀ c, r.head? = some c → noSep c = false := by
  intro c hc
  rcases h c hc with rfl | rfl | rfl <;> decide

/-- `f` writes texts that can be read back, for the values with `P`. -/
def Readable {α : Type} (f : α → Option Str) (P : α → Prop) : Prop :=
  (∀ x a, P x → f x = some a → Starts a) ∧
  ∀ x x' a a' r r', P x → P x' → f x = some a → f x' = some a' → Sep r → Sep r' → a ++ r = a' ++ r' → x = x' ∧ r = r'

theorem items_some {α : Type} {f : α → Option Str} {first : Bool} {x : α} {l : List α} {s : Str}
    (h : items f first (x :: l) = some s) :
    ∃ a b, f x = some a ∧ items f false l = some b ∧ s = (if first then [] else [44, 32]) ++ a ++ b := by
  simp only [items] at h
  cases ha : f x with
  | none => rw [ha] at h; cases h
  | some a =>
    cases hb : items f false l with
    | none => rw [ha, hb] at h; cases h
    | some b => rw [ha, hb] at h; exact ⟨a, b, rfl, rfl, (Option.some.inj h).symm⟩

theorem items_rest {α : Type} {f : α → Option Str} {l : List α} {s : Str} (h : items f false l = some s) (r : Str) :
    Sep (s ++ 125 :: r) := by
  cases l with
  | nil =>
    cases h
    intro c hc
    exact Or.inr (Or.inl (Option.some.inj hc).symm)
  | cons x l =>
    obtain ⟨a, b, _, _, rfl⟩ := items_some h
    intro c hc
    exact Or.inl (Option.some.inj hc).symm

theorem items_read {α : Type} {f : α → Option Str} {P : α → Prop} (hf : Readable f P) :
    ∀ {l l' : List α} {s s' r r' : Str}, (∀ x ∈ l, P x) → (∀ x ∈ l', P x) →
      items f false l = some s → items f false l' = some s' → s ++ 125 :: r = s' ++ 125 :: r' → l = l' ∧ r = r'
  | [], [], s, s', r, r', _, _, h1, h2, e => by
    cases h1; cases h2
    exact ⟨rfl, (List.cons.inj e).2⟩
  | [], x :: l', s, s', r, r', _, _, h1, h2, e => by
    obtain ⟨a, b, _, _, rfl⟩ := items_some h2
    cases h1
    exact absurd (List.cons.inj e).1 (by decide)
  | x :: l, [], s, s', r, r', _, _, h1, h2, e => by
    obtain ⟨a, b, _, _, rfl⟩ := items_some h1
    cases h2
    exact absurd (List.cons.inj e).1 (by decide)
  | x :: l, x' :: l', s, s', r, r', p1, p2, h1, h2, e => by
    obtain ⟨a, b, ha, hb, rfl⟩ := items_some h1
    obtain ⟨a', b', ha', hb', rfl⟩ := items_some h2
    have e' : a ++ (b ++ 125 :: r) = a' ++ (b' ++ 125 :: r') := by
      have e : 44 :: 32 :: (a ++ b ++ 125 :: r) = 44 :: 32 :: (a' ++ b' ++ 125 :: r') := e
      simpa only [List.append_assoc] using (List.cons.inj (List.cons.inj e).2).2
    obtain ⟨q1, q2⟩ := hf.2 _ _ _ _ _ _ (p1 x List.mem_cons_self) (p2 x' List.mem_cons_self) ha ha'
      (items_rest hb r) (items_rest hb' r') e'
    obtain ⟨q3, q4⟩ := items_read hf (fun y hy => p1 y (List.mem_cons_of_mem _ hy))
      (fun y hy => p2 y (List.mem_cons_of_mem _ hy)) hb hb' q2
    exact ⟨by rw [q1, q3], q4⟩

/-- The whole of a list in braces. -/
theorem items_read_first {α : Type} {f : α → Option Str} {P : α → Prop} (hf : Readable f P) {l l' : List α} {s s' r r' : Str}
    (p1 : ∀ x ∈ l, P x) (p2 : ∀ x ∈ l', P x) (h1 : items f true l = some s) (h2 : items f true l' = some s')
    (e : s ++ 125 :: r = s' ++ 125 :: r') : l = l' ∧ r = r' := by
  cases l with
  | nil =>
    cases l' with
    | nil => cases h1; cases h2; exact ⟨rfl, (List.cons.inj e).2⟩
    | cons x' l' =>
      obtain ⟨a, b, ha, _, rfl⟩ := items_some h2
      cases h1
      obtain ⟨c, t, rfl, _, hc, _⟩ := hf.1 _ _ (p2 x' List.mem_cons_self) ha
      exact absurd (List.cons.inj e).1.symm hc
  | cons x l =>
    cases l' with
    | nil =>
      obtain ⟨a, b, ha, _, rfl⟩ := items_some h1
      cases h2
      obtain ⟨c, t, rfl, _, hc, _⟩ := hf.1 _ _ (p1 x List.mem_cons_self) ha
      exact absurd (List.cons.inj e).1 hc
    | cons x' l' =>
      obtain ⟨a, b, ha, hb, rfl⟩ := items_some h1
      obtain ⟨a', b', ha', hb', rfl⟩ := items_some h2
      have e' : a ++ (b ++ 125 :: r) = a' ++ (b' ++ 125 :: r') := by
        simpa only [List.append_assoc, if_true, List.nil_append] using e
      obtain ⟨q1, q2⟩ := hf.2 _ _ _ _ _ _ (p1 x List.mem_cons_self) (p2 x' List.mem_cons_self) ha ha'
        (items_rest hb r) (items_rest hb' r') e'
      obtain ⟨q3, q4⟩ := items_read hf (fun y hy => p1 y (List.mem_cons_of_mem _ hy))
        (fun y hy => p2 y (List.mem_cons_of_mem _ hy)) hb hb' q2
      exact ⟨by rw [q1, q3], q4⟩

theorem entry_some {f g : Val → Option Str} {p : Val × Val} {s : Str} (h : entry f g p = some s) :
    ∃ a b, f p.1 = some a ∧ g p.2 = some b ∧ s = a ++ [58, 32] ++ b := by
  simp only [entry] at h
  cases ha : f p.1 with
  | none => rw [ha] at h; cases h
  | some a =>
    cases hb : g p.2 with
    | none => rw [ha, hb] at h; cases h
    | some b => rw [ha, hb] at h; exact ⟨a, b, rfl, rfl, (Option.some.inj h).symm⟩

theorem starts_append {a : Str} (h : Starts a) (b : Str) : Starts (a ++ b) := by
  obtain ⟨c, r, rfl, h⟩ := h
  exact ⟨c, r ++ b, rfl, h⟩

theorem entry_readable {f g : Val → Option Str} {P Q : Val → Prop} (hf : Readable f P) (hg : Readable g Q) :
    Readable (entry f g) (fun p => P p.1 ∧ Q p.2) := by
  constructor
  · intro x s hp h
    obtain ⟨a, b, ha, _, rfl⟩ := entry_some h
    rw [List.append_assoc]
    exact starts_append (hf.1 _ _ hp.1 ha) _
  · intro x x' s s' r r' hp hp' h h' hr hr' e
    obtain ⟨a, b, ha, hb, rfl⟩ := entry_some h
    obtain ⟨a', b', ha', hb', rfl⟩ := entry_some h'
    have hs : ∀ t : Str, Sep (58 :: 32 :: t) := fun t c hc => Or.inr (Or.inr (Option.some.inj hc).symm)
    have e' : a ++ (58 :: 32 :: (b ++ r)) = a' ++ (58 :: 32 :: (b' ++ r')) := by
      simpa only [List.append_assoc, List.cons_append, List.nil_append] using e
    obtain ⟨q1, q2⟩ := hf.2 _ _ _ _ _ _ hp.1 hp'.1 ha ha' (hs _) (hs _) e'
    obtain ⟨q3, q4⟩ := hg.2 _ _ _ _ _ _ hp.2 hp'.2 hb hb' hr hr' (List.cons.inj (List.cons.inj q2).2).2
    exact ⟨Prod.ext q1 q3, q4⟩

theorem fieldItems_some {f : Ty → Val → Option Str} {first : Bool} {n : Str} {t : Ty} {fs : List (Str × Ty)} {l : List Val} {s : Str}
    (h : fieldItems f first ((n, t) :: fs) l = some s) :
    ∃ x r a b, l = x :: r ∧ f t x = some a ∧ fieldItems f false fs r = some b ∧
      s = (if first then [] else [44, 32]) ++ n ++ [58, 32] ++ a ++ b := by
  cases l with
  | nil => cases h
  | cons x r =>
    simp only [fieldItems] at h
    cases ha : f t x with
    | none => rw [ha] at h; cases h
    | some a =>
      cases hb : fieldItems f false fs r with
      | none => rw [ha, hb] at h; cases h
      | some b => rw [ha, hb] at h; exact ⟨x, r, a, b, rfl, ha, hb, (Option.some.inj h).symm⟩

theorem fieldItems_nil {f : Ty → Val → Option Str} {first : Bool} {l : List Val} {s : Str}
    (h : fieldItems f first [] l = some s) : l = [] ∧ s = [] := by
  cases l with
  | nil => cases h; exact ⟨rfl, rfl⟩
  | cons x r => cases h

theorem fieldItems_rest {f : Ty → Val → Option Str} {fs : List (Str × Ty)} {l : List Val} {s : Str}
    (h : fieldItems f false fs l = some s) (r : Str) : Sep (s ++ 125 :: r) := by
  cases fs with
  | nil =>
    obtain ⟨_, rfl⟩ := fieldItems_nil h
    intro c hc
    exact Or.inr (Or.inl (Option.some.inj hc).symm)
  | cons p fs =>
    obtain ⟨n, t⟩ := p
    obtain ⟨_, _, _, _, _, _, _, rfl⟩ := fieldItems_some h
    intro c hc
    exact Or.inl (Option.some.inj hc).symm

theorem fields_read {f : Ty → Val → Option Str} {P : Ty → Val → Prop} (hf : ∀ t, Readable (f t) (P t)) :
    ∀ (fs : List (Str × Ty)) (first : Bool) (l l' : List Val) (s s' r r' : Str),
      (∀ p ∈ fs.zip l, P p.1.2 p.2) → (∀ p ∈ fs.zip l', P p.1.2 p.2) →
      fieldItems f first fs l = some s → fieldItems f first fs l' = some s' → s ++ 125 :: r = s' ++ 125 :: r' → l = l' ∧ r = r'
  | [], _, l, l', s, s', r, r', _, _, h1, h2, e => by
    obtain ⟨rfl, rfl⟩ := fieldItems_nil h1
    obtain ⟨rfl, rfl⟩ := fieldItems_nil h2
    exact ⟨rfl, (List.cons.inj e).2⟩
  | (n, t) :: fs, first, l, l', s, s', r, r', p1, p2, h1, h2, e => by
    obtain ⟨x, l, a, b, rfl, ha, hb, rfl⟩ := fieldItems_some h1
    obtain ⟨x', l', a', b', rfl, ha', hb', rfl⟩ := fieldItems_some h2
    have e' : a ++ (b ++ 125 :: r) = a' ++ (b' ++ 125 :: r') := by
      simp only [List.append_assoc] at e
      exact List.append_cancel_left (List.append_cancel_left (List.append_cancel_left e))
    obtain ⟨q1, q2⟩ := (hf t).2 _ _ _ _ _ _ (p1 ((n, t), x) List.mem_cons_self) (p2 ((n, t), x') List.mem_cons_self) ha ha'
      (fieldItems_rest hb r) (fieldItems_rest hb' r') e'
    obtain ⟨q3, q4⟩ := fields_read hf fs false l l' b b' r r' (fun y hy => p1 y (List.mem_cons_of_mem _ hy))
      (fun y hy => p2 y (List.mem_cons_of_mem _ hy)) hb hb' q2
    have q1 : x = x' := q1
    exact ⟨by rw [q1, q3], q4⟩

/-- Values whose text says all: strings without quotes and zeros, characters that are Unicode scalar values, no struct within
itself, and only structs whose declaration is found. -/
inductive Clean (e : Env) : List Nat → Ty → Val → Prop
  | int {vis t z} : t = .int ∨ t = .byte ∨ t = .enm ∨ t = .uint → Clean e vis t (.int z)
  | float {vis t} : (∀ c ∈ t, noSep c = true) → t ≠ [] → Clean e vis .float (.float t)
  | str {vis s} : 34 ∉ s → 0 ∉ s → Clean e vis .str (.str s)
  | bool {vis b} : Clean e vis .bool (.bool b)
  | char {vis} {c : Int} : 0 ≤ c → Scalar c.toNat → Clean e vis .char (.char c)
  | arr {vis t l} : (∀ x ∈ l, Clean e vis t x) → Clean e vis (.arr t) (.arr l)
  | map {vis k v} {l : List (Val × Val)} : (∀ x ∈ l, Clean e vis k x.1) → (∀ x ∈ l, Clean e vis v x.2) → Clean e vis (.map k v) (.map l)
  | struct {vis s fs} {l : List Val} : s ∉ vis → e.fields s = some fs →
      (∀ p ∈ List.zip fs l, Clean e (s :: vis) p.1.2 p.2) → Clean e vis (.struct s) (.struct l)
  | ptr {vis a} : Clean e vis .ptr (.ptr a)
  | err {vis a} : Clean e vis .err (.ptr a)

theorem dec_starts (z : Int) : Starts (dec z) := by
  obtain ⟨h1, h2⟩ := dec_num z
  cases h : dec z with
  | nil => exact absurd h h2
  | cons c r =>
    have := h1 c (by rw [h]; exact List.mem_cons_self)
    exact ⟨c, r, rfl, by rintro rfl; revert this; decide, by rintro rfl; revert this; decide, by rintro rfl; revert this; decide⟩

theorem dec_read {z y : Int} {r r' : Str} (hr : Sep r) (hr' : Sep r') (e : dec z ++ r = dec y ++ r') : z = y ∧ r = r' := by
  obtain ⟨h1, h2⟩ := span_unique isNum (dec_num z).1 (dec_num y).1 (sep_num hr) (sep_num hr') e
  exact ⟨dec_inj h1, h2⟩

theorem show_cstr {s : Str} (h : 0 ∉ s) : Show.cstr s = s := cstr_eq h

theorem str_read {s s' r r' : Str} (h : 34 ∉ s) (h' : 34 ∉ s') (e : s ++ 34 :: r = s' ++ 34 :: r') : s = s' ∧ r = r' := by
  have hp : ∀ {s : Str}, 34 ∉ s → ∀ c ∈ s, (c != 34) = true := fun h c hc => bne_iff_ne.2 fun e => h (e ▸ hc)
  have hh : ∀ r : Str, ∀ c, (34 :: r : Str).head? = some c → (c != 34) = false := by
    intro r c hc
    rw [← Option.some.inj hc]; decide
  obtain ⟨h1, h2⟩ := span_unique (fun c => c != 34) (hp h) (hp h') (hh r) (hh r') e
  exact ⟨h1, (List.cons.inj h2).2⟩

theorem utf8_read {c c' : Nat} (h : c < 0x110000) (h' : c' < 0x110000) {r r' : Str} (e : utf8 c ++ r = utf8 c' ++ r') :
    c = c' ∧ r = r' := by
  obtain ⟨b, t, h1, h2, _⟩ := step_utf8 c h r
  obtain ⟨b', t', h1', h2', _⟩ := step_utf8 c' h' r'
  rw [h1, h1'] at e
  obtain ⟨rfl, rfl⟩ := List.cons.inj e
  rw [h2] at h2'
  have : c = c' := congrArg Prod.fst h2'
  subst this
  exact ⟨rfl, List.append_cancel_left (h1.trans h1'.symm)⟩

theorem ptr_num (a : Nat) : ∀ c ∈ (if a = 0 then lit "nil" else lit "0x" ++ num 16 a), noSep c = true := by
  intro c hc
  split at hc
  · revert c; decide
  · rcases List.mem_append.1 hc with hc | hc
    · exact (by decide : ∀ c ∈ lit "0x", noSep c = true) c hc
    · have := ((num_all 16 (by omega) (by omega) a).1 c hc).1
      unfold noSep
      have key : ∀ n : Fin 256, isNum (BitVec.ofFin n : Byte) = true →
        ((BitVec.ofFin n : Byte) != 44 && (BitVec.ofFin n : Byte) != 125 && (BitVec.ofFin n : Byte) != 58) = true := by decide +kernel
      exact key c.toFin this

theorem ptr_inj {a b : Nat} (h : (if a = 0 then lit "nil" else lit "0x" ++ num 16 a) = (if b = 0 then lit "nil" else lit "0x" ++ num 16 b)) :
    a = b := by
  split at h <;> split at h
  · omega
  · exact absurd (Option.some.inj (congrArg List.head? h : some (110 : Byte) = some 48)) (by decide)
  · exact absurd (Option.some.inj (congrArg List.head? h : some (48 : Byte) = some 110)) (by decide)
  · exact num_inj (by omega) (by omega) (List.append_cancel_left h)

theorem noSep_starts {s : Str} (h : ∀ c ∈ s, noSep c = true) (hne : s ≠ []) : Starts s := by
  cases s with
  | nil => exact absurd rfl hne
  | cons c r =>
    have := h c List.mem_cons_self
    exact ⟨c, r, rfl, by rintro rfl; revert this; decide, by rintro rfl; revert this; decide, by rintro rfl; revert this; decide⟩

theorem lit_starts (c : Byte) (r : Str) (h : noSep c = true) : Starts (c :: r) :=
  ⟨c, r, rfl, by rintro rfl; revert h; decide, by rintro rfl; revert h; decide, by rintro rfl; revert h; decide⟩

/-- The text of a clean value can be read back. -/
theorem shown_readable (e : Env) (hname : ∀ s, Starts (e.name s)) : ∀ (n : Nat) (vis : List Nat) (t : Ty),
    Readable (shown e n vis t) (Clean e vis t)
  | 0, _, _ => ⟨fun _ _ _ h => (by cases h), fun _ _ _ _ _ _ _ _ h => (by cases h)⟩
  | n + 1, vis, t => by
    have ih := shown_readable e hname n
    constructor
    · intro x a hc h
      cases hc with
      | int ht => rcases ht with rfl | rfl | rfl | rfl <;> (cases h; exact dec_starts _)
      | float h1 h2 => cases h; exact noSep_starts h1 h2
      | str => cases h; exact lit_starts _ _ (by decide)
      | @bool _ b => cases h; cases b <;> exact lit_starts _ _ (by decide)
      | char => cases h; exact lit_starts _ _ (by decide)
      | arr =>
        simp only [shown] at h
        split at h
        · cases h; exact lit_starts _ _ (by decide)
        · cases h
      | map =>
        simp only [shown] at h
        split at h
        · cases h; exact lit_starts _ _ (by decide)
        · cases h
      | struct hv hf =>
        simp only [shown, if_neg hv, hf] at h
        split at h
        · cases h; rw [List.append_assoc]; exact starts_append (hname _) _
        · cases h
      | ptr =>
        cases h
        refine noSep_starts (ptr_num _) ?_
        split <;> (intro q; cases q)
      | err => cases h; exact dec_starts _
    · intro x x' a a' r r' hc hc' h h' hr hr' eq
      cases hc with
      | int ht =>
        rcases ht with rfl | rfl | rfl | rfl <;>
          (cases hc'; cases h; cases h'; obtain ⟨rfl, q⟩ := dec_read hr hr' eq; exact ⟨rfl, q⟩)
      | float h1 h2 =>
        cases hc' with
        | int ht => rcases ht with q | q | q | q <;> cases q
        | float h1' h2' =>
          cases h; cases h'
          obtain ⟨rfl, q⟩ := span_unique noSep h1 h1' (sep_noSep hr) (sep_noSep hr') eq
          exact ⟨rfl, q⟩
      | str h1 h2 =>
        cases hc' with
        | int ht => rcases ht with q | q | q | q <;> cases q
        | str h1' h2' =>
          simp only [shown, show_cstr h2] at h
          simp only [shown, show_cstr h2'] at h'
          cases h; cases h'
          have eq : 34 :: (_ ++ [34] ++ r) = 34 :: (_ ++ [34] ++ r') := eq
          have eq := (List.cons.inj eq).2
          simp only [List.append_assoc, List.cons_append, List.nil_append] at eq
          obtain ⟨rfl, q⟩ := str_read h1 h1' eq
          exact ⟨rfl, q⟩
      | @bool _ b =>
        cases hc' with
        | int ht => rcases ht with q | q | q | q <;> cases q
        | @bool _ b' =>
          cases h; cases h'
          cases b <;> cases b'
          · exact ⟨rfl, List.append_cancel_left eq⟩
          · exact absurd (List.cons.inj (eq : (102 : Byte) :: _ = 116 :: _)).1 (by decide)
          · exact absurd (List.cons.inj (eq : (116 : Byte) :: _ = 102 :: _)).1 (by decide)
          · exact ⟨rfl, List.append_cancel_left eq⟩
      | char h0 h1 =>
        cases hc' with
        | int ht => rcases ht with q | q | q | q <;> cases q
        | char h0' h1' =>
          simp only [shown, char_utf8 h0 h1] at h
          simp only [shown, char_utf8 h0' h1'] at h'
          cases h; cases h'
          have eq : 39 :: (_ ++ [39] ++ r) = 39 :: (_ ++ [39] ++ r') := eq
          have eq := (List.cons.inj eq).2
          simp only [List.append_assoc, List.cons_append, List.nil_append] at eq
          obtain ⟨q1, q2⟩ := utf8_read (by unfold Scalar at h1; omega) (by unfold Scalar at h1'; omega) eq
          exact ⟨congrArg Val.char (by omega), (List.cons.inj q2).2⟩
      | arr hl =>
        cases hc' with
        | int ht => rcases ht with q | q | q | q <;> cases q
        | arr hl' =>
          simp only [shown] at h h'
          split at h
          · split at h'
            · rename_i s1 i1 _ s2 i2
              cases h; cases h'
              have eq : s1 ++ [125] ++ r = s2 ++ [125] ++ r' := (List.cons.inj eq).2
              simp only [List.append_assoc, List.cons_append, List.nil_append] at eq
              obtain ⟨rfl, q⟩ := items_read_first (ih vis _) hl hl' i1 i2 eq
              exact ⟨rfl, q⟩
            · cases h'
          · cases h
      | @map _ k v l hk hl =>
        cases hc' with
        | int ht => rcases ht with q | q | q | q <;> cases q
        | @map _ _ _ l' hk' hl' =>
          have hl : ∀ x ∈ l, _ ∧ _ := fun x hx => ⟨hk x hx, hl x hx⟩
          have hl' : ∀ x ∈ l', _ ∧ _ := fun x hx => ⟨hk' x hx, hl' x hx⟩
          simp only [shown] at h h'
          split at h
          · split at h'
            · rename_i s1 i1 _ s2 i2
              have hr := entry_readable (ih vis k) (ih vis v)
              cases l with
              | nil =>
                cases l' with
                | nil =>
                  cases i1; cases i2; cases h; cases h'
                  exact ⟨rfl, List.append_cancel_left eq⟩
                | cons p l' =>
                  obtain ⟨b, c, hb, _, rfl⟩ := items_some i2
                  obtain ⟨d, t, rfl, _, _, hd⟩ := hr.1 _ _ (hl' p List.mem_cons_self) hb
                  cases i1; cases h; cases h'
                  have eq := (List.cons.inj (eq : 123 :: 58 :: _ = 123 :: d :: _)).2
                  exact absurd (List.cons.inj eq).1.symm hd
              | cons p l =>
                cases l' with
                | nil =>
                  obtain ⟨b, c, hb, _, rfl⟩ := items_some i1
                  obtain ⟨d, t, rfl, _, _, hd⟩ := hr.1 _ _ (hl p List.mem_cons_self) hb
                  cases i2; cases h; cases h'
                  have eq := (List.cons.inj (eq : 123 :: d :: _ = 123 :: 58 :: _)).2
                  exact absurd (List.cons.inj eq).1 hd
                | cons p' l' =>
                  cases h; cases h'
                  have eq : s1 ++ [125] ++ r = s2 ++ [125] ++ r' := (List.cons.inj eq).2
                  simp only [List.append_assoc, List.cons_append, List.nil_append] at eq
                  obtain ⟨q1, q⟩ := items_read_first hr hl hl' i1 i2 eq
                  exact ⟨congrArg Val.map q1, q⟩
            · cases h'
          · cases h
      | @struct _ s fs l hv hf hl =>
        cases hc' with
        | int ht => rcases ht with q | q | q | q <;> cases q
        | @struct _ _ fs' l' hv' hf' hl' =>
          have : fs = fs' := Option.some.inj (hf.symm.trans hf')
          subst this
          simp only [shown, if_neg hv, hf] at h h'
          split at h
          · split at h'
            · rename_i s1 i1 _ s2 i2
              cases h; cases h'
              simp only [List.append_assoc, List.cons_append, List.nil_append] at eq
              have eq := (List.cons.inj (List.append_cancel_left eq)).2
              obtain ⟨q1, q⟩ := fields_read (ih (s :: vis)) fs true l l' s1 s2 r r' hl hl' i1 i2 eq
              exact ⟨congrArg Val.struct q1, q⟩
            · cases h'
          · cases h
      | ptr =>
        cases hc' with
        | int ht => rcases ht with q | q | q | q <;> cases q
        | ptr =>
          cases h; cases h'
          obtain ⟨q1, q⟩ := span_unique noSep (ptr_num _) (ptr_num _) (sep_noSep hr) (sep_noSep hr') eq
          exact ⟨congrArg Val.ptr (ptr_inj q1), q⟩
      | err =>
        cases hc' with
        | int ht => rcases ht with q | q | q | q <;> cases q
        | err =>
          cases h; cases h'
          obtain ⟨q1, q⟩ := dec_read hr hr' eq
          exact ⟨congrArg Val.ptr (by omega), q⟩

end Sv

open Sv

/-! ### C307: the text of a value -/

/-- C307: values that are printed alike are alike. -/
def C307_statement : Prop :=
  ∀ (e : Env) (n : Nat) (t : Ty) (v v' : Val) (s : Str), shown e n [] t v = some s → shown e n [] t v' = some s → v = v'

/-- An environment for the examples: struct 0 is `Node { n int, kids [Node] }`, struct 1 an instance of a generic struct. -/
def Sv.env0 : Env :=
  { name := fun s => if s = 0 then lit "Node" else lit "Box__int"
    fields := fun s => if s = 0 then some [(lit "n", .int), (lit "kids", .arr (.struct 0))] else none
    plain := fun _ => true }

theorem C307_witness :
    -- {"a", "b"} with one string and with two
    shown env0 5 [] (.arr .str) (.arr [.str (lit "a\", \"b")]) = some (lit "{\"a\", \"b\"}") ∧
    shown env0 5 [] (.arr .str) (.arr [.str (lit "a"), .str (lit "b")]) = some (lit "{\"a\", \"b\"}") ∧
    -- a tree shows only its root
    shown env0 5 [] (.struct 0) (.struct [.int 1, .arr [.struct [.int 2, .arr []]]]) = some (lit "Node{n: 1, kids: {Node{...}}}") ∧
    shown env0 5 [] (.struct 0) (.struct [.int 1, .arr [.struct [.int 3, .arr []]]]) = some (lit "Node{n: 1, kids: {Node{...}}}") ∧
    -- an instance of a generic struct shows nothing
    (∀ l, shown env0 5 [] (.struct 1) (.struct l) = some (lit "Box__int{}")) ∧
    -- strings end at a zero
    shown env0 5 [] (.arr .str) (.arr [.str [97, 0, 98]]) = some (lit "{\"a\"}") := by
  refine ⟨by decide +kernel, by decide +kernel, by decide +kernel, by decide +kernel, fun l => by rfl, by decide +kernel⟩

theorem C307_fails : ¬ C307_statement := by
  intro h
  have := h env0 5 (.struct 1) (.struct []) (.struct [.int 0]) _ (C307_witness.2.2.2.2.1 _) (C307_witness.2.2.2.2.1 _)
  cases this

/-- C307 for clean values, of any type, also when something follows. -/
theorem C307_partial (e : Env) (hname : ∀ s, Starts (e.name s)) (n n' : Nat) (vis : List Nat) (t : Ty) (v v' : Val) (s : Str)
    (hv : Clean e vis t v) (hv' : Clean e vis t v') (h : shown e n vis t v = some s) (h' : shown e n vis t v' = some s) : v = v' :=
  ((shown_readable e hname n vis t).2 v v' s s [] [] hv hv' h h' (fun c hc => by cases hc) (fun c hc => by cases hc) rfl).1

example : shown env0 5 [] (.map .str (.arr .int)) (.map [(.str (lit "a"), .arr [.int 1, .int (-20)]), (.str [], .arr [])]) =
    some (lit "{\"a\": {1, -20}, \"\": {}}") := by decide +kernel
example : Clean env0 [] (.arr .str) (.arr [.str (lit "a")]) :=
  .arr fun x hx => by rw [List.mem_singleton.1 hx]; exact .str (by decide) (by decide)
example : ∀ s, Starts (env0.name s) := by
  intro s
  by_cases h : s = 0
  · subst h; exact lit_starts _ _ (by decide)
  · show Starts (if s = 0 then lit "Node" else lit "Box__int")
    rw [if_neg h]; exact lit_starts _ _ (by decide)

/-! ### C308: the generator -/

namespace Sv

/-- All structs named in a type are below `N`. -/
def Below (N : Nat) : Ty → Prop
  | .arr t => Below N t
  | .map k v => Below N k ∧ Below N v
  | .struct s => s < N
  | _ => True

/-- All structs named in the fields of structs below `N` are below `N`. -/
def Closed (e : Env) (N : Nat) : Prop := ∀ s fs, s < N → e.fields s = some fs → ∀ p ∈ fs, Below N p.2

/-- Types whose printing code does not compile, within the structs `vis`. -/
inductive Bad (e : Env) : List Nat → Ty → Prop
  | wide {vis} : Bad e vis .wide
  | strEnum {vis} : Bad e vis .strEnum
  | tagged {vis} : Bad e vis .tagged
  | arr {vis t} : Bad e vis t → Bad e vis (.arr t)
  | key {vis k v} : Bad e vis k → Bad e vis (.map k v)
  | val {vis k v} : Bad e vis v → Bad e vis (.map k v)
  | name {vis s fs n t} : s ∉ vis → e.fields s = some fs → (n, t) ∈ fs → e.plain n = false → Bad e vis (.struct s)
  | field {vis s fs n t} : s ∉ vis → e.fields s = some fs → (n, t) ∈ fs → Bad e (s :: vis) t → Bad e vis (.struct s)

theorem andThen_done {r : R} {k : G → R} {b : Bool} {g : G} (h : r.andThen k = .done b g) :
    ∃ b1 g1 b2, r = .done b1 g1 ∧ k g1 = .done b2 g ∧ b = (b1 && b2) := by
  cases r with
  | fuel => cases h
  | ub => cases h
  | done b1 g1 =>
    simp only [R.andThen] at h
    cases hk : k g1 with
    | fuel => rw [hk] at h; cases h
    | ub => rw [hk] at h; cases h
    | done b2 g2 =>
      rw [hk] at h
      injection h with q1 q2
      exact ⟨b1, g1, b2, rfl, by rw [hk, q2], q1.symm⟩

theorem andThen_eq {r : R} {k : G → R} {b1 b2 : Bool} {g1 g : G} (h : r = .done b1 g1) (hk : k g1 = .done b2 g) :
    r.andThen k = .done (b1 && b2) g := by
  subst h
  simp only [R.andThen, hk]

theorem pigeon {N : Nat} {vis : List Nat} (hn : vis.Nodup) (hb : ∀ x ∈ vis, x < N) : vis.length ≤ N := by
  have := (List.subperm_of_subset hn (l₂ := List.range N) (fun x hx => List.mem_range.2 (hb x hx))).length_le
  rwa [List.length_range] at this

/-- The state of the generator in a program with `N` structs. -/
def Ok (N : Nat) (vis : List Nat) : Prop := vis.Nodup ∧ ∀ x ∈ vis, x < N

theorem ok_cons {N s : Nat} {vis : List Nat} (h : Ok N vis) (hs : s < N) (hv : s ∉ vis) : Ok N (s :: vis) :=
  ⟨List.nodup_cons.2 ⟨hv, h.1⟩, fun x hx => by
    rcases List.mem_cons.1 hx with rfl | hx
    · exact hs
    · exact h.2 x hx⟩

theorem push_ok {N s : Nat} {vis : List Nat} (hN : N ≤ 64) (h : Ok N vis) (hs : s < N) (hv : s ∉ vis) :
    push s ⟨vis, 0⟩ = some ⟨s :: vis, 0⟩ := by
  have := pigeon (ok_cons h hs hv).1 (ok_cons h hs hv).2
  rw [List.length_cons] at this
  have hl : vis.length < guardDepth := by show vis.length < 64; omega
  simp only [push, if_neg (Nat.lt_irrefl 0), if_pos hl]

theorem genFields_sound {e : Env} {N : Nat} {f : Ty → G → R} {vis : List Nat}
    (hf : ∀ t b g', Below N t → f t ⟨vis, 0⟩ = .done b g' → g' = ⟨vis, 0⟩ ∧ (b = false ↔ Bad e vis t)) :
    ∀ (fs : List (Str × Ty)) (b : Bool) (g' : G), (∀ p ∈ fs, Below N p.2) → genFields e f fs ⟨vis, 0⟩ = .done b g' →
      g' = ⟨vis, 0⟩ ∧ (b = false ↔ ∃ p ∈ fs, e.plain p.1 = false ∨ Bad e vis p.2)
  | [], b, g', _, h => by
    cases h
    exact ⟨rfl, fun h => (by cases h), fun ⟨p, hp, _⟩ => (by cases hp)⟩
  | (n, t) :: fs, b, g', hb, h => by
    obtain ⟨b1, g1, b2, h1, h2, rfl⟩ := andThen_done h
    obtain ⟨b3, g3, b4, h3, h4, rfl⟩ := andThen_done h1
    cases h3
    obtain ⟨rfl, q1⟩ := hf t b4 g1 (hb (n, t) List.mem_cons_self) h4
    obtain ⟨rfl, q2⟩ := genFields_sound hf fs b2 g' (fun p hp => hb p (List.mem_cons_of_mem _ hp)) h2
    refine ⟨rfl, ?_⟩
    rw [Bool.and_eq_false_iff, Bool.and_eq_false_iff, q1, q2]
    constructor
    · rintro (h | ⟨p, hp, h⟩)
      · exact ⟨(n, t), List.mem_cons_self, h⟩
      · exact ⟨p, List.mem_cons_of_mem _ hp, h⟩
    · rintro ⟨p, hp, h⟩
      rcases List.mem_cons.1 hp with rfl | hp
      · exact Or.inl h
      · exact Or.inr ⟨p, hp, h⟩

theorem gen_sound {e : Env} {N : Nat} (hN : N ≤ 64) (hc : Closed e N) : ∀ (n : Nat) (vis : List Nat) (t : Ty) (b : Bool) (g' : G),
    Ok N vis → Below N t → gen e n t ⟨vis, 0⟩ = .done b g' → g' = ⟨vis, 0⟩ ∧ (b = false ↔ Bad e vis t)
  | 0, _, _, _, _, _, _, h => by cases h
  | n + 1, vis, t, b, g', hv, ht, h => by
    have ih := gen_sound hN hc n
    cases t with
    | int | uint | float | bool | char | byte | str | enm | ptr | err =>
      cases h
      exact ⟨rfl, fun h => (by cases h), fun h => (by cases h)⟩
    | wide => cases h; exact ⟨rfl, fun _ => .wide, fun _ => rfl⟩
    | strEnum => cases h; exact ⟨rfl, fun _ => .strEnum, fun _ => rfl⟩
    | tagged => cases h; exact ⟨rfl, fun _ => .tagged, fun _ => rfl⟩
    | arr t =>
      obtain ⟨q1, q2⟩ := ih vis t b g' hv ht h
      exact ⟨q1, q2.trans ⟨.arr, fun h => by cases h; assumption⟩⟩
    | map k v =>
      obtain ⟨b1, g1, b2, h1, h2, rfl⟩ := andThen_done h
      obtain ⟨rfl, q1⟩ := ih vis k b1 g1 hv ht.1 h1
      obtain ⟨q, q2⟩ := ih vis v b2 g' hv ht.2 h2
      refine ⟨q, ?_⟩
      rw [Bool.and_eq_false_iff, q1, q2]
      constructor
      · rintro (h | h)
        · exact .key h
        · exact .val h
      · intro h
        cases h with
        | key h => exact Or.inl h
        | val h => exact Or.inr h
    | struct s =>
      by_cases hs : s ∈ vis
      · simp only [gen, if_pos hs] at h
        cases h
        refine ⟨rfl, fun h => (by cases h), fun h => ?_⟩
        cases h <;> contradiction
      · simp only [gen, if_neg hs, push_ok hN hv ht hs] at h
        cases hf : e.fields s with
        | none =>
          simp only [hf] at h
          cases h
          refine ⟨rfl, fun h => (by cases h), fun h => ?_⟩
          cases h with
          | name _ hf' => rw [hf] at hf'; cases hf'
          | field _ hf' => rw [hf] at hf'; cases hf'
        | some fs =>
          simp only [hf] at h
          cases hg : genFields e (gen e n) fs ⟨s :: vis, 0⟩ with
          | fuel => rw [hg] at h; cases h
          | ub => rw [hg] at h; cases h
          | done b2 g2 =>
            rw [hg] at h
            obtain ⟨rfl, q⟩ := genFields_sound (fun t b g' hb => ih (s :: vis) t b g' (ok_cons hv ht hs) hb) fs b2 g2
              (hc s fs ht hf) hg
            cases h
            refine ⟨rfl, q.trans ⟨?_, fun h => ?_⟩⟩
            · rintro ⟨⟨n, t⟩, hp, h | h⟩
              · exact .name hs hf hp h
              · exact .field hs hf hp h
            · cases h with
              | name _ hf' hp h =>
                rw [hf] at hf'; cases hf'
                exact ⟨_, hp, Or.inl h⟩
              | field _ hf' hp h =>
                rw [hf] at hf'; cases hf'
                exact ⟨_, hp, Or.inr h⟩

theorem genFields_mono {e : Env} {f f' : Ty → G → R} (hf : ∀ t g b g', f t g = .done b g' → f' t g = .done b g') :
    ∀ (fs : List (Str × Ty)) (g : G) (b : Bool) (g' : G), genFields e f fs g = .done b g' → genFields e f' fs g = .done b g'
  | [], _, _, _, h => h
  | (n, t) :: fs, g, b, g', h => by
    obtain ⟨b1, g1, b2, h1, h2, rfl⟩ := andThen_done h
    obtain ⟨b3, g3, b4, h3, h4, rfl⟩ := andThen_done h1
    exact andThen_eq (andThen_eq h3 (hf _ _ _ _ h4)) (genFields_mono hf fs g1 b2 g' h2)

theorem gen_mono {e : Env} : ∀ (n : Nat) (t : Ty) (g : G) (b : Bool) (g' : G), gen e n t g = .done b g' → gen e (n + 1) t g = .done b g'
  | 0, _, _, _, _, h => by cases h
  | n + 1, t, g, b, g', h => by
    have ih := gen_mono (e := e) n
    cases t with
    | int | uint | float | bool | char | byte | str | enm | ptr | err | wide | strEnum | tagged => exact h
    | arr t => exact ih t g b g' h
    | map k v =>
      obtain ⟨b1, g1, b2, h1, h2, rfl⟩ := andThen_done h
      exact andThen_eq (ih _ _ _ _ h1) (ih _ _ _ _ h2)
    | struct s =>
      unfold gen at h ⊢
      dsimp only at h ⊢
      by_cases hs : s ∈ g.vis
      · rw [if_pos hs] at h ⊢; exact h
      · rw [if_neg hs] at h ⊢
        cases hp : push s g with
        | none => rw [hp] at h; cases h
        | some g1 =>
          rw [hp] at h
          dsimp only at h ⊢
          cases hf : e.fields s with
          | none => rw [hf] at h; exact h
          | some fs =>
            rw [hf] at h
            dsimp only at h ⊢
            cases hg : genFields e (gen e n) fs g1 with
            | fuel => rw [hg] at h; cases h
            | ub => rw [hg] at h; cases h
            | done b2 g2 =>
              rw [hg] at h
              rw [genFields_mono ih fs g1 b2 g2 hg]
              exact h

theorem gen_mono_le {e : Env} {n m : Nat} (hm : n ≤ m) {t : Ty} {g : G} {b : Bool} {g' : G} (h : gen e n t g = .done b g') :
    gen e m t g = .done b g' := by
  induction hm with
  | refl => exact h
  | step _ ih => exact gen_mono _ _ _ _ _ ih

theorem genFields_ends {e : Env} {N : Nat} (hN : N ≤ 64) (hc : Closed e N) {vis : List Nat} (hv : Ok N vis)
    (hf : ∀ t, Below N t → ∃ n b g', gen e n t ⟨vis, 0⟩ = .done b g') : ∀ (fs : List (Str × Ty)), (∀ p ∈ fs, Below N p.2) →
      ∃ n b g', genFields e (gen e n) fs ⟨vis, 0⟩ = .done b g'
  | [], _ => ⟨0, true, _, rfl⟩
  | (x, t) :: fs, hb => by
    obtain ⟨n, b, g, h⟩ := hf t (hb (x, t) List.mem_cons_self)
    obtain ⟨rfl, _⟩ := gen_sound hN hc n vis t b g hv (hb (x, t) List.mem_cons_self) h
    obtain ⟨m, b', g', h'⟩ := genFields_ends hN hc hv hf fs (fun p hp => hb p (List.mem_cons_of_mem _ hp))
    refine ⟨max n m, (e.plain x && b) && b', g', ?_⟩
    exact andThen_eq (andThen_eq rfl (gen_mono_le (Nat.le_max_left n m) h))
      (genFields_mono (fun t g b g' h => gen_mono_le (Nat.le_max_right n m) h) fs _ _ _ h')

theorem gen_ends {e : Env} {N : Nat} (hN : N ≤ 64) (hc : Closed e N) : ∀ (k : Nat) (vis : List Nat), N ≤ vis.length + k → Ok N vis →
    ∀ t, Below N t → ∃ n b g', gen e n t ⟨vis, 0⟩ = .done b g' := by
  intro k
  induction k with
  | zero =>
    intro vis hk hv t
    induction t with
    | int | uint | float | bool | char | byte | str | enm | ptr | err | wide | strEnum | tagged => exact fun _ => ⟨1, _, _, rfl⟩
    | arr t ih =>
      intro ht
      obtain ⟨n, b, g', h⟩ := ih ht
      exact ⟨n + 1, b, g', h⟩
    | map k v ihk ihv =>
      intro ht
      obtain ⟨n, b, g, h⟩ := ihk ht.1
      obtain ⟨rfl, _⟩ := gen_sound hN hc n vis k b g hv ht.1 h
      obtain ⟨m, b', g', h'⟩ := ihv ht.2
      exact ⟨max n m + 1, b && b', g', andThen_eq (gen_mono_le (Nat.le_max_left n m) h) (gen_mono_le (Nat.le_max_right n m) h')⟩
    | struct s =>
      intro ht
      by_cases hs : s ∈ vis
      · exact ⟨1, true, _, by rw [gen]; dsimp only; rw [if_pos hs]⟩
      · have := pigeon (ok_cons hv ht hs).1 (ok_cons hv ht hs).2
        rw [List.length_cons] at this
        omega
  | succ k ihk0 =>
    intro vis hk hv t
    induction t with
    | int | uint | float | bool | char | byte | str | enm | ptr | err | wide | strEnum | tagged => exact fun _ => ⟨1, _, _, rfl⟩
    | arr t ih =>
      intro ht
      obtain ⟨n, b, g', h⟩ := ih ht
      exact ⟨n + 1, b, g', h⟩
    | map k v ihk ihv =>
      intro ht
      obtain ⟨n, b, g, h⟩ := ihk ht.1
      obtain ⟨rfl, _⟩ := gen_sound hN hc n vis k b g hv ht.1 h
      obtain ⟨m, b', g', h'⟩ := ihv ht.2
      exact ⟨max n m + 1, b && b', g', andThen_eq (gen_mono_le (Nat.le_max_left n m) h) (gen_mono_le (Nat.le_max_right n m) h')⟩
    | struct s =>
      intro ht
      by_cases hs : s ∈ vis
      · exact ⟨1, true, _, by rw [gen]; dsimp only; rw [if_pos hs]⟩
      · cases hf : e.fields s with
        | none => exact ⟨1, true, _, by rw [gen]; dsimp only; rw [if_neg hs, push_ok hN hv ht hs, hf]⟩
        | some fs =>
          obtain ⟨n, b, g', h⟩ := genFields_ends hN hc (ok_cons hv ht hs)
            (ihk0 (s :: vis) (by rw [List.length_cons]; omega) (ok_cons hv ht hs)) fs (hc s fs ht hf)
          exact ⟨n + 1, b, pop g', by rw [gen]; dsimp only; rw [if_neg hs, push_ok hN hv ht hs, hf]; dsimp only; rw [h]⟩

/-- 64 structs, each within the one before, and a tree. -/
def deep : Env :=
  { name := fun _ => lit "S"
    fields := fun s => some [(lit "x", if s < 64 then .struct (s + 1) else .arr (.struct 64))]
    plain := fun _ => true }

/-- 65 structs, each within the one before. -/
def chain : Env :=
  { name := fun _ => lit "S"
    fields := fun s => some [(lit "x", if s < 64 then .struct (s + 1) else .int)]
    plain := fun _ => true }

/-- `k - 1, …, 0` -/
def down : Nat → List Nat
  | 0 => []
  | k + 1 => k :: down k

theorem down_spec : ∀ k, (down k).length = k ∧ ∀ x ∈ down k, x < k
  | 0 => ⟨rfl, fun x hx => by cases hx⟩
  | k + 1 => by
    obtain ⟨h1, h2⟩ := down_spec k
    refine ⟨by rw [down, List.length_cons, h1], fun x hx => ?_⟩
    rcases List.mem_cons.1 hx with rfl | hx
    · omega
    · have := h2 x hx; omega

theorem deep_tree : ∀ (n : Nat) (k : Nat), k ≤ n → gen deep k (.struct 64) ⟨down 64, 0⟩ = .fuel ∧ gen deep k (.arr (.struct 64)) ⟨down 64, 0⟩ = .fuel
  | 0, k, h => by
    have : k = 0 := by omega
    subst this
    exact ⟨rfl, rfl⟩
  | n + 1, k, h => by
    cases k with
    | zero => exact ⟨rfl, rfl⟩
    | succ k =>
      obtain ⟨h1, h2⟩ := deep_tree n k (by omega)
      refine ⟨?_, h1⟩
      have hn : 64 ∉ down 64 := fun hm => Nat.lt_irrefl _ ((down_spec 64).2 _ hm)
      have hp : push 64 ⟨down 64, 0⟩ = some ⟨down 64, 0⟩ := by
        have hl : ¬ (down 64).length < guardDepth := by rw [(down_spec 64).1]; exact Nat.lt_irrefl 64
        simp only [push, if_neg (Nat.lt_irrefl 0), if_neg hl]
      have hf : genFields deep (gen deep k) [(lit "x", .arr (.struct 64))] ⟨down 64, 0⟩ = .fuel := by
        simp only [genFields, R.andThen, h2]
      rw [gen]
      dsimp only
      rw [if_neg hn, hp]
      dsimp only
      rw [show deep.fields 64 = some [(lit "x", .arr (.struct 64))] from rfl]
      dsimp only
      rw [hf]

theorem deep_chain : ∀ (j k : Nat), j + k = 64 → ∀ n, gen deep n (.struct k) ⟨down k, 0⟩ = .fuel
  | 0, k, h, n => by
    have : k = 64 := by omega
    subst this
    exact (deep_tree n n (Nat.le_refl n)).1
  | j + 1, k, h, n => by
    cases n with
    | zero => rfl
    | succ n =>
      have ih := deep_chain j (k + 1) (by omega) n
      have hn : k ∉ down k := fun hm => Nat.lt_irrefl _ ((down_spec k).2 _ hm)
      have hp : push k ⟨down k, 0⟩ = some ⟨down (k + 1), 0⟩ := by
        have hl : (down k).length < guardDepth := by rw [(down_spec k).1]; show k < 64; omega
        simp only [push, if_neg (Nat.lt_irrefl 0), if_pos hl]
        rfl
      have hf : genFields deep (gen deep n) [(lit "x", .struct (k + 1))] ⟨down (k + 1), 0⟩ = .fuel := by
        simp only [genFields, R.andThen, ih]
      have hk : k < 64 := by omega
      rw [gen]
      dsimp only
      rw [if_neg hn, hp]
      dsimp only
      rw [show deep.fields k = some [(lit "x", .struct (k + 1))] by simp only [deep, if_pos hk]]
      dsimp only
      rw [hf]

end Sv

/-- C308: the generator of printing code ends, and leaves its table as it found it. -/
def C308_statement : Prop := ∀ (e : Env) (t : Ty), ∃ n b, gen e n t ⟨[], 0⟩ = .done b ⟨[], 0⟩

theorem C308_witness :
    -- within 64 structs, a tree is followed for ever
    (∀ n, gen deep n (.struct 0) ⟨[], 0⟩ = .fuel) ∧
    -- 65 structs are one too many: the depth is -1 afterwards, and the next struct is entered before the table
    gen chain 100 (.struct 0) ⟨[], 0⟩ = .done true ⟨[], 1⟩ ∧
    gen chain 100 (.struct 64) ⟨[], 1⟩ = .ub :=
  ⟨fun n => deep_chain 64 0 rfl n, by decide +kernel, by decide +kernel⟩

theorem C308_fails : ¬ C308_statement := by
  intro h
  obtain ⟨n, b, h⟩ := h deep (.struct 0)
  rw [C308_witness.1 n] at h
  cases h

/-- C308 for programs with up to 64 structs. What is missing: more structs than that, within each other. -/
theorem C308_partial (e : Env) (N : Nat) (hN : N ≤ 64) (hc : Closed e N) (t : Ty) (ht : Below N t) :
    ∃ n b, gen e n t ⟨[], 0⟩ = .done b ⟨[], 0⟩ := by
  have hv : Ok N [] := ⟨List.nodup_nil, fun x hx => by cases hx⟩
  obtain ⟨n, b, g', h⟩ := gen_ends hN hc N [] (by simp) hv t ht
  obtain ⟨rfl, _⟩ := gen_sound hN hc n [] t b g' hv ht h
  exact ⟨n, b, h⟩

example : Closed env0 2 := by
  intro s fs hs hf p hp
  by_cases h : s = 0
  · subst h
    cases hf
    rcases List.mem_cons.1 hp with rfl | hp
    · trivial
    · rw [List.mem_singleton.1 hp]; exact (by decide : 0 < 2)
  · have : s = 1 := by omega
    subst this
    cases hf
example : gen env0 5 (.struct 0) ⟨[], 0⟩ = .done true ⟨[], 0⟩ := by decide +kernel

/-! ### C309: the C text -/

/-- C309: what the generator makes for an array, map or struct compiles. -/
def C309_statement : Prop :=
  ∀ (e : Env) (n : Nat) (t : Ty) (b : Bool) (g : G), gen e n (.arr t) ⟨[], 0⟩ = .done b g → b = true

theorem C309_witness :
    gen env0 5 (.arr .wide) ⟨[], 0⟩ = .done false ⟨[], 0⟩ ∧
    gen env0 5 (.map .str .strEnum) ⟨[], 0⟩ = .done false ⟨[], 0⟩ ∧
    gen env0 5 (.arr .tagged) ⟨[], 0⟩ = .done false ⟨[], 0⟩ ∧
    gen { env0 with plain := fun n => n != lit "kids" } 5 (.struct 0) ⟨[], 0⟩ = .done false ⟨[], 0⟩ := by
  refine ⟨by decide +kernel, by decide +kernel, by decide +kernel, by decide +kernel⟩

theorem C309_fails : ¬ C309_statement := fun h =>
  absurd (h env0 5 .wide false _ C309_witness.1) (by decide)

/-- C309 exactly, for up to 64 structs: the text fails to compile if and only if the type holds a wide number, an enum of
strings or with payloads, or a field whose name C does not keep, outside of structs that are already being printed. -/
theorem C309_partial (e : Env) (N : Nat) (hN : N ≤ 64) (hc : Closed e N) (t : Ty) (ht : Below N t) (n : Nat) (b : Bool) (g : G)
    (h : gen e n t ⟨[], 0⟩ = .done b g) : b = false ↔ Bad e [] t :=
  (gen_sound hN hc n [] t b g ⟨List.nodup_nil, fun x hx => by cases hx⟩ ht h).2

example : Bad env0 [] (.map .int (.arr .strEnum)) := .val (.arr .strEnum)
example : ¬ Bad env0 [] (.arr (.arr .int)) := by
  intro h; cases h with | arr h => cases h with | arr h => cases h

/-! ### C310: print and interpolation -/

namespace Sv

/-- An element as `gray_builtin_array_to_string` takes it, for the types it knows. -/
def elemOf : Ty → Val → Option Interp.Elem
  | .int, .int z => some (.plain (dec z))
  | .uint, .int z => some (.plain (dec z))
  | .byte, .int z => some (.plain (dec z))
  | .bool, .bool b => some (.plain (if b then lit "true" else lit "false"))
  | .str, .str s => some (.str s)
  | .char, .char c => some (.chr c)
  | _, _ => none

theorem shown_elem {e : Env} {n : Nat} {vis : List Nat} {t : Ty} {v : Val} {x : Interp.Elem} (h : elemOf t v = some x) (hx : NoNul x) :
    shown e (n + 1) vis t v = some (elemSpec x) := by
  unfold elemOf at h
  split at h
  · cases h; rfl
  · cases h; rfl
  · cases h; rfl
  · cases h; rfl
  · cases h
    simp only [shown, show_cstr hx]
    rfl
  · cases h
    simp only [shown, char_utf8 hx.1 hx.2]
    rfl
  · cases h

theorem items_joined {α : Type} {f : α → Option Str} {g : α → Str} : ∀ {l : List α}, (∀ x ∈ l, f x = some (g x)) →
    items f true l = some (joined (lit ", ") (l.map g)) ∧
    (l ≠ [] → items f false l = some (lit ", " ++ joined (lit ", ") (l.map g)))
  | [], _ => ⟨rfl, fun h => absurd rfl h⟩
  | [x], h => by
    simp only [items, h x List.mem_cons_self]
    simp only [List.map, joined, List.append_nil, if_true, List.nil_append]
    exact ⟨trivial, fun _ => rfl⟩
  | x :: y :: l, h => by
    have ih := (items_joined (l := y :: l) (fun z hz => h z (List.mem_cons_of_mem _ hz))).2 (by intro e; cases e)
    rw [items, h x List.mem_cons_self, ih, items, h x List.mem_cons_self, ih]
    simp only [List.map, joined, List.append_assoc]
    exact ⟨rfl, fun _ => rfl⟩

end Sv

/-- C310: `println(a)` writes what `"${a}"` holds. -/
def C310_statement : Prop :=
  ∀ (e : Env) (n : Nat) (t : Ty) (l : List Val) (es : List Interp.Elem) (s : Str), l.mapM (elemOf t) = some es →
    shown e n [] (.arr t) (.arr l) = some s → Interp.arrayText es = .ok s

/-- A long string in an array can be printed, but interpolating it writes outside of the buffer; a longer array is cut. -/
theorem C310_witness (e : Env) (s : Str) (hn : 0 ∉ s) (h : 4092 ≤ s.length) :
    shown e 5 [] (.arr .str) (.arr [.str s]) = some (123 :: (34 :: s ++ [34]) ++ [125]) ∧ Interp.arrayText [.str s] = .ub := by
  refine ⟨?_, C100_overrun_witness s hn h⟩
  simp only [shown, items, show_cstr hn, if_true, List.nil_append, List.append_nil]

theorem C310_fails : ¬ C310_statement := by
  intro h
  have hn : (0 : Byte) ∉ List.replicate 4092 (97 : Byte) := fun hm => absurd (List.eq_of_mem_replicate hm) (by decide)
  obtain ⟨h1, h2⟩ := C310_witness env0 (List.replicate 4092 97) hn (by rw [List.length_replicate])
  have := h env0 5 .str _ [.str (List.replicate 4092 97)] _ rfl h1
  rw [h2] at this
  cases this

/-- C310 for arrays whose text has at most 4001 bytes, of numbers, booleans, strings without zeros and Unicode characters. -/
theorem C310_partial (e : Env) (n : Nat) (vis : List Nat) (t : Ty) (p : List (Val × Interp.Elem))
    (hp : ∀ x ∈ p, elemOf t x.1 = some x.2 ∧ NoNul x.2) (hl : (arraySpec (p.map Prod.snd)).length ≤ 4001) :
    ∃ s, shown e (n + 2) vis (.arr t) (.arr (p.map Prod.fst)) = some s ∧ Interp.arrayText (p.map Prod.snd) = .ok s := by
  refine ⟨arraySpec (p.map Prod.snd), ?_, C100_partial.1 _ (fun x hx => ?_) hl⟩
  · have key : ∀ q : List (Val × Interp.Elem), ∀ b, items (shown e (n + 1) vis t) b (q.map Prod.fst) =
        items (fun x : Val × Interp.Elem => shown e (n + 1) vis t x.1) b q := by
      intro q
      induction q with
      | nil => intro b; rfl
      | cons x q ih => intro b; simp only [List.map, items, ih]
    have hi := (items_joined (f := fun x : Val × Interp.Elem => shown e (n + 1) vis t x.1) (g := fun x => elemSpec x.2) (l := p)
      (fun x hx => shown_elem (hp x hx).1 (hp x hx).2)).1
    rw [shown]
    simp only [key, hi, arraySpec, List.map_map]
    rfl
  · obtain ⟨y, hy, rfl⟩ := List.mem_map.1 hx
    exact (hp y hy).2

example : shown env0 5 [] (.arr .char) (.arr [.char 98, .char 0x20AC]) = some (lit "{'b', '" ++ [0xE2, 0x82, 0xAC] ++ lit "'}") ∧
    Interp.arrayText [.chr 98, .chr 0x20AC] = .ok (lit "{'b', '" ++ [0xE2, 0x82, 0xAC] ++ lit "'}") := by
  refine ⟨by decide +kernel, by decide +kernel⟩

end Verif.Props
