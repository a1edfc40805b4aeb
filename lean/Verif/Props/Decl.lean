import Verif.Model.Decl
import Verif.Props.LitEmit
import Batteries.Data.List.Perm

/-!
# Declarations of structs and enums (C258–C264)
-/

namespace Verif.Props
open Verif Verif.Str Verif.Decl

namespace De

/-! ### Structs within structs -/

/-- Struct `a` has a field that holds a `b` itself. -/
def Holds (p : Prog) (a b : Str) : Prop := ∃ d, find p a = some d ∧ b ∈ d.fields ∧ byValue b = true

/-- The structs of `l` hold one another in turn, and the last one holds `b`. -/
inductive Path (p : Prog) (b : Str) : List Str → Prop where
  | last {a : Str} (h : Holds p a b) : Path p b [a]
  | cons {a c : Str} {l : List Str} (h : Holds p a c) (r : Path p b (c :: l)) : Path p b (a :: c :: l)

theorem find_name {p : Prog} {n : Str} {d : Struct} (h : find p n = some d) : d.name = n := by
  have := List.find?_some h
  exact eq_of_beq this

theorem path_suffix {p : Prog} {b : Str} : ∀ (l1 : List Str) {a : Str} {l2 : List Str}, Path p b (l1 ++ a :: l2) → Path p b (a :: l2)
  | [], _, _, h => h
  | [x], _, _, h => by cases h with | cons _ r => exact r
  | x :: y :: l1, a, l2, h => by
    cases h with
    | cons _ r => exact path_suffix (y :: l1) r

/-- A path can be made one without repetitions. -/
theorem path_simple {p : Prog} {b : Str} {l : List Str} (h : Path p b l) : ∀ a, l.head? = some a →
    ∃ l', Path p b l' ∧ l'.head? = some a ∧ l'.Nodup ∧ l'.length ≤ l.length := by
  induction h with
  | @last a h => exact fun x hx => ⟨[a], .last h, hx, by simp, Nat.le_refl _⟩
  | @cons a c l h r ih =>
    intro x hx
    obtain ⟨l', h1, h2, h3, h4⟩ := ih c rfl
    by_cases hm : a ∈ l'
    · obtain ⟨s, t, e⟩ := List.append_of_mem hm
      refine ⟨a :: t, path_suffix s (e ▸ h1), hx, ?_, ?_⟩
      · rw [e] at h3; exact (List.nodup_append.1 h3).2.1
      · rw [e] at h4
        simp only [List.length_append, List.length_cons] at h4 ⊢
        omega
    · cases l' with
      | nil => cases h1
      | cons c' l'' =>
        have e : c' = c := Option.some.inj h2
        subst e
        exact ⟨a :: c' :: l'', .cons h h1, hx, List.nodup_cons.2 ⟨hm, h3⟩, by simp only [List.length_cons] at h4 ⊢; omega⟩

theorem contains_sound (p : Prog) (target : Str) : ∀ (k : Nat) (vis : List Str) (n : Str) (d : Struct), find p n = some d →
    contains p target k vis d = true → ∃ l, Path p target (n :: l) ∧ l.length < k := by
  intro k
  induction k with
  | zero => intro vis n d _ h; cases h
  | succ k ih =>
    intro vis n d hd h
    simp only [contains] at h
    split at h
    · cases h
    · obtain ⟨t, ht, h2⟩ := List.any_eq_true.1 h
      obtain ⟨hb, h3⟩ := Bool.and_eq_true_iff.1 h2
      have hold : Holds p n t := ⟨d, hd, ht, hb⟩
      rcases Bool.or_eq_true_iff.1 h3 with e | e
      · have e := eq_of_beq e
        exact ⟨[], .last (e ▸ hold), Nat.succ_pos _⟩
      · cases hf : find p t with
        | none => rw [hf] at e; cases e
        | some c =>
          rw [hf] at e
          obtain ⟨l, hl, hk⟩ := ih _ t c hf e
          exact ⟨t :: l, .cons hold hl, by simp only [List.length_cons]; omega⟩

theorem contains_complete (p : Prog) (target : Str) : ∀ (l : List Str), Path p target l → l.Nodup → ∀ (k : Nat) (vis : List Str) (n : Str) (d : Struct),
    l.head? = some n → find p n = some d → (∀ x ∈ l, x ∉ vis) → l.length ≤ k → contains p target k vis d = true := by
  intro l hp
  induction hp with
  | @last a h =>
    intro _ k vis n d hn hd hv hk
    have e : a = n := Option.some.inj hn
    subst e
    obtain ⟨d', hd', ht, hb⟩ := h
    rw [hd] at hd'; cases hd'
    cases k with
    | zero => simp at hk
    | succ k =>
      have hv' : vis.contains d.name = false := by
        rw [find_name hd]
        simpa using hv a List.mem_cons_self
      simp only [contains, hv', Bool.false_eq_true, if_false]
      exact List.any_eq_true.2 ⟨target, ht, by simp [hb]⟩
  | @cons a c l h r ih =>
    intro hnd k vis n d hn hd hv hk
    have e : a = n := Option.some.inj hn
    subst e
    have hn2 := List.nodup_cons.1 hnd
    obtain ⟨d', hd', ht, hb⟩ := h
    rw [hd] at hd'; cases hd'
    cases k with
    | zero => simp at hk
    | succ k =>
      have hv' : vis.contains d.name = false := by
        rw [find_name hd]
        simpa using hv a List.mem_cons_self
      have hc : ∃ dc, find p c = some dc := by
        cases r with
        | last h => exact ⟨h.choose, h.choose_spec.1⟩
        | cons h _ => exact ⟨h.choose, h.choose_spec.1⟩
      obtain ⟨dc, hdc⟩ := hc
      have := ih hn2.2 k (d.name :: vis) c dc rfl hdc (by
        intro x hx hm
        rcases List.mem_cons.1 hm with e | e
        · rw [find_name hd] at e; exact hn2.1 (e ▸ hx)
        · exact hv x (List.mem_cons_of_mem _ hx) e) (by simp only [List.length_cons] at hk ⊢; omega)
      simp only [contains, hv', Bool.false_eq_true, if_false]
      refine List.any_eq_true.2 ⟨c, ht, ?_⟩
      simp only [hb, hdc, this, Bool.or_true, Bool.and_true]

/-- The structs of a ring of `n`. -/
def ringName (i : Nat) : Str := [65, BitVec.ofNat 8 i]
def ring (n : Nat) : Prog := (List.range n).map fun i => ⟨ringName i, [ringName ((i + 1) % n)]⟩

/-- Structs of two fields each, that hold the next one. -/
def node (i : Nat) : Struct := ⟨ringName i, if i = 33 then [lit "int"] else [ringName (i + 1), ringName (i + 1)]⟩
def ladder : Prog := (List.range 34).map node

theorem ladder_find : ∀ i : Fin 34, find ladder (ringName i) = some (node i) ∧ byValue (ringName i) = true
    ∧ ∀ j : Fin 34, ringName i = ringName j → i = j := by decide +kernel

theorem ladder_calls (k : Nat) : ∀ (i : Nat) (vis : List Str), i + k ≤ 33 → 1 ≤ i → (∀ j : Fin 34, i ≤ j.1 → ringName j.1 ∉ vis) →
    contains ladder (ringName 0) k vis (node i) = false ∧ 2 ^ (k + 1) - 1 ≤ calls ladder (ringName 0) k vis (node i) := by
  induction k with
  | zero => intro i vis h _ _; exact ⟨rfl, Nat.le_refl 1⟩
  | succ k ih =>
    intro i vis h h1 hv
    have hi : (vis.contains (node i).name) = false := by
      have := hv ⟨i, by omega⟩ (Nat.le_refl _)
      simpa [node] using this
    obtain ⟨f1, f2, f3⟩ := ladder_find ⟨i + 1, by omega⟩
    have hne : (ringName (i + 1) == ringName 0) = false := by
      apply beq_false_of_ne
      intro e
      have := f3 ⟨0, by decide⟩ e
      have := congrArg Fin.val this
      simp at this
    have hfields : (node i).fields = [ringName (i + 1), ringName (i + 1)] := if_neg (by omega)
    obtain ⟨c1, c2⟩ := ih (i + 1) ((node i).name :: vis) (by omega) (by omega) (by
      intro j hj hm
      rcases List.mem_cons.1 hm with e | e
      · have := (ladder_find j).2.2 ⟨i, by omega⟩ e
        have := congrArg Fin.val this
        simp at this
        omega
      · exact hv j (by omega) e)
    constructor
    · simp only [contains, hi, Bool.false_eq_true, if_false, hfields, List.any_cons, List.any_nil, f1, f2, hne, c1, Bool.or_false, Bool.and_false]
    · simp only [calls, hi, Bool.false_eq_true, if_false, hfields, List.foldl_cons, List.foldl_nil, f1, f2, hne, c1, if_true]
      rw [Nat.pow_succ]
      have := Nat.one_le_two_pow (n := k + 1)
      omega

end De
open De

/-! ### C258 -/

/-- A struct is refused exactly if it holds itself, directly or through others. -/
def C258_statement : Prop := ∀ (p : Prog) (d : Struct), find p d.name = some d → (refused p d = true ↔ ∃ l, Path p d.name (d.name :: l))

/-- 34 structs in a ring are accepted, each of them; 33 are not. -/
theorem C258_witness : (ring 34).all (fun d => !refused (ring 34) d) = true ∧ (ring 33).all (fun d => refused (ring 33) d) = true := by
  decide +kernel

theorem C258_fails : ¬ C258_statement := by
  intro h
  have hr : ∀ i : Fin 34, find (ring 34) (ringName i) = some ⟨ringName i, [ringName ((i + 1) % 34)]⟩ ∧ byValue (ringName ((i + 1) % 34)) = true := by
    decide +kernel
  have hp : ∀ n : Nat, n ≤ 33 → Path (ring 34) (ringName 0) ((List.range (n + 1)).map fun j => ringName (33 - n + j)) := by
    intro n
    induction n with
    | zero => exact fun _ => .last ⟨_, (hr ⟨33, by decide⟩).1, List.mem_cons_self, (hr ⟨33, by decide⟩).2⟩
    | succ n ih =>
      intro hn
      have e : (List.range (n + 1 + 1)).map (fun j => ringName (33 - (n + 1) + j))
          = ringName (33 - (n + 1)) :: (List.range (n + 1)).map (fun j => ringName (33 - n + j)) := by
        rw [List.range_succ_eq_map, List.map_cons, List.map_map]
        congr 1
        apply List.map_congr_left
        intro j _
        show ringName (33 - (n + 1) + (j + 1)) = _
        congr 1; omega
      have e2 : (List.range (n + 1)).map (fun j => ringName (33 - n + j))
          = ringName (33 - n) :: (List.range n).map (fun j => ringName (33 - n + (j + 1))) := by
        rw [List.range_succ_eq_map, List.map_cons, List.map_map]; rfl
      rw [e]
      have r := ih (by omega)
      rw [e2] at r ⊢
      refine .cons ?_ r
      have := hr ⟨33 - (n + 1), by omega⟩
      have e3 : (33 - (n + 1) + 1) % 34 = 33 - n := by omega
      refine ⟨_, this.1, ?_, ?_⟩
      · rw [List.mem_singleton]; exact congrArg ringName e3.symm
      · have h2 := this.2
        simp only [e3] at h2
        exact h2
  have h0 := (h (ring 34) ⟨ringName 0, [ringName 1]⟩ (by decide +kernel)).2 ⟨_, (hp 33 (by decide))⟩
  exact absurd h0 (by decide +kernel)

/-- What holds: a struct is refused exactly if it holds itself through at most 32 others; nothing else is refused.
Missing: longer rings, which are accepted and have no size. -/
theorem C258_partial (p : Prog) (d : Struct) (hd : find p d.name = some d) :
    (refused p d = true ↔ ∃ l, Path p d.name (d.name :: l) ∧ l.length ≤ 32) := by
  constructor
  · intro h
    obtain ⟨t, ht, h2⟩ := List.any_eq_true.1 h
    obtain ⟨hb, h3⟩ := Bool.and_eq_true_iff.1 h2
    have hold : Holds p d.name t := ⟨d, hd, ht, hb⟩
    rcases Bool.or_eq_true_iff.1 h3 with e | e
    · have e := eq_of_beq e
      exact ⟨[], .last (e ▸ hold), by decide⟩
    · cases hf : find p t with
      | none => rw [hf] at e; cases e
      | some c =>
        rw [hf] at e
        obtain ⟨l, hl, hk⟩ := contains_sound p d.name 32 [] t c hf e
        exact ⟨t :: l, .cons hold hl, by simp only [List.length_cons]; omega⟩
  · rintro ⟨l, hl, hlen⟩
    cases hl with
    | last h =>
      obtain ⟨d', hd', ht, hb⟩ := h
      rw [hd] at hd'; cases hd'
      exact List.any_eq_true.2 ⟨d.name, ht, by simp [isCycle, hb]⟩
    | @cons _ c l h r =>
      obtain ⟨d', hd', ht, hb⟩ := h
      rw [hd] at hd'; cases hd'
      obtain ⟨l', h1, h2, h3, h4⟩ := path_simple r c rfl
      have hc : ∃ dc, find p c = some dc := by
        cases r with
        | last h => exact ⟨h.choose, h.choose_spec.1⟩
        | cons h _ => exact ⟨h.choose, h.choose_spec.1⟩
      obtain ⟨dc, hdc⟩ := hc
      have := contains_complete p d.name l' h1 h3 32 [] c dc h2 hdc (fun x _ hm => by cases hm) (by
        simp only [List.length_cons] at h4 hlen; omega)
      refine List.any_eq_true.2 ⟨c, ht, ?_⟩
      simp only [isCycle, hb, hdc, this, Bool.or_true, Bool.and_true]

/-- Pointers, arrays and maps do not hold what they refer to. -/
example : refused [⟨lit "Node", [lit "int", lit "^Node", lit "[Node]", lit "map[int:Node]"]⟩] ⟨lit "Node", [lit "int", lit "^Node", lit "[Node]", lit "map[int:Node]"]⟩ = false := by
  decide +kernel
example : refused [⟨lit "A", [lit "B"]⟩, ⟨lit "B", [lit "A"]⟩] ⟨lit "A", [lit "B"]⟩ = true := by decide +kernel

/-! ### C259 -/

/-- The check of one field takes at most as many calls as a polynomial in the number of structs and fields allows, here the fourth power. -/
def C259_statement : Prop := ∀ (p : Prog) (d c : Struct), d ∈ p → c ∈ p →
  calls p d.name 32 [] c ≤ (p.length + (p.map (·.fields.length)).sum) ^ 4

/-- 34 structs with two fields each take 2^33 − 1 calls. -/
theorem C259_witness : 8589934591 ≤ calls ladder (ringName 0) 32 [] (node 1) := by
  have := (ladder_calls 32 1 [] (by decide) (by decide) (fun _ _ h => by cases h)).2
  exact Nat.le_trans (by decide +kernel) this

theorem C259_fails : ¬ C259_statement := by
  intro h
  have h1 := h ladder (node 0) (node 1) (by decide +kernel) (by decide +kernel)
  have h2 : (ladder.length + (ladder.map (·.fields.length)).sum) ^ 4 < 8589934591 := by decide +kernel
  exact absurd (Nat.lt_of_lt_of_le h2 C259_witness) (Nat.not_lt.2 h1)

namespace De

/-- The largest number of fields. -/
def width : Prog → Nat
  | [] => 0
  | d :: r => max d.fields.length (width r)

theorem width_le {p : Prog} {d : Struct} (h : d ∈ p) : d.fields.length ≤ width p := by
  induction p with
  | nil => cases h
  | cons e r ih =>
    simp only [width]
    rcases List.mem_cons.1 h with rfl | h
    · omega
    · have := ih h; omega

/-- `1 + w + … + w^k` -/
def geo (w : Nat) : Nat → Nat
  | 0 => 1
  | k + 1 => 1 + w * geo w k

theorem geo_pos (w k : Nat) : 1 ≤ geo w k := by
  cases k with
  | zero => exact Nat.le_refl _
  | succ k => exact Nat.le_add_right _ _

theorem calls_le (p : Prog) (target : Str) : ∀ (k : Nat) (vis : List Str) (d : Struct), d ∈ p → calls p target k vis d ≤ geo (width p) k := by
  intro k
  induction k with
  | zero => intro vis d _; exact Nat.le_refl _
  | succ k ih =>
    intro vis d hd
    simp only [calls, geo]
    split
    · exact Nat.le_add_right _ _
    · have : ∀ (l : List Str) (st : Bool × Nat), (l.foldl (fun (st : Bool × Nat) t =>
          if st.1 then st
          else if byValue t then
            if t == target then (true, st.2)
            else match find p t with
              | none => st
              | some c => (contains p target k (d.name :: vis) c, st.2 + calls p target k (d.name :: vis) c)
          else st) st).2 ≤ st.2 + l.length * geo (width p) k := by
        intro l
        induction l with
        | nil => intro st; simp
        | cons t r ihl =>
          intro st
          rw [List.foldl_cons]
          refine Nat.le_trans (ihl _) ?_
          rw [List.length_cons, Nat.succ_mul]
          split
          · omega
          · split
            · split
              · simp only; omega
              · cases hf : find p t with
                | none => simp only; omega
                | some c =>
                  simp only
                  have := ih (d.name :: vis) c (List.mem_of_find?_eq_some hf)
                  omega
            · omega
      have h1 := this d.fields (false, 0)
      have h2 := Nat.mul_le_mul_right (geo (width p) k) (width_le hd)
      simp only [Nat.zero_add] at h1
      exact Nat.add_le_add_left (Nat.le_trans h1 h2) 1

theorem geo_one (k : Nat) : geo 1 k = k + 1 := by
  induction k with
  | zero => rfl
  | succ k ih => simp only [geo, ih]; omega

end De

/-- What holds: the check ends, after at most `1 + w + … + w^32` calls for `w` fields at most in a struct; for one field each these are 33.
Missing: a bound that is not exponential in the depth. -/
theorem C259_partial (p : Prog) (d c : Struct) (hc : c ∈ p) :
    calls p d.name 32 [] c ≤ geo (width p) 32 ∧ (width p ≤ 1 → calls p d.name 32 [] c ≤ 33) := by
  have h := calls_le p d.name 32 [] c hc
  refine ⟨h, fun hw => Nat.le_trans h ?_⟩
  have : ∀ k w, w ≤ 1 → geo w k ≤ k + 1 := by
    intro k w hw
    rcases Nat.lt_or_ge w 1 with h | h
    · have : w = 0 := by omega
      subst this
      cases k with
      | zero => exact Nat.le_refl _
      | succ k => simp only [geo]; omega
    · have : w = 1 := by omega
      subst this
      rw [geo_one]; exact Nat.le_refl _
  exact this 32 _ hw

example : calls (ring 40) (ringName 0) 32 [] ⟨ringName 1, [ringName 2]⟩ = 33 := by decide +kernel

/-! ### C260 -/

namespace De

/-- Struct `i` needs struct `k` before it. -/
def Needs (ss : List Struct) (i k : Nat) : Prop := k ≠ i ∧ ∃ d e, ss[i]? = some d ∧ ss[k]? = some e ∧ e.name ∈ d.fields

theorem depsMet_iff (ss : List Struct) (done : List Nat) (i : Nat) : depsMet ss done i = true ↔ ∀ k, Needs ss i k → k ∈ done := by
  unfold depsMet
  constructor
  · intro h k hk
    obtain ⟨hne, d, e, hd, he, hm⟩ := hk
    rw [hd] at h
    have h1 := List.all_eq_true.1 h _ hm
    have hk : k < ss.length := (List.getElem?_eq_some_iff.1 he).1
    have h2 := List.all_eq_true.1 h1 k (List.mem_range.2 hk)
    rw [he] at h2
    simpa [hne] using h2
  · intro h
    cases hd : ss[i]? with
    | none => rfl
    | some d =>
      refine List.all_eq_true.2 fun t ht => List.all_eq_true.2 fun k hk => ?_
      cases he : ss[k]? with
      | none => simp
      | some e =>
        by_cases hne : k = i
        · simp [hne]
        · by_cases hn : e.name = t
          · have := h k ⟨hne, d, e, hd, he, hn ▸ ht⟩
            simp [this]
          · simp [hn]

/-- Everything that is needed comes before. -/
def Ordered (ss : List Struct) (l : List Nat) : Prop := ∀ l1 i l2, l = l1 ++ i :: l2 → ∀ k, Needs ss i k → k ∈ l1

structure Good (ss : List Struct) (l : List Nat) : Prop where
  nodup : l.Nodup
  low : ∀ i ∈ l, i < ss.length
  ordered : Ordered ss l

theorem good_nil (ss : List Struct) : Good ss [] :=
  ⟨List.nodup_nil, (fun _ h => by cases h), (fun l1 i l2 h => by cases l1 <;> cases h)⟩

theorem good_add {ss : List Struct} {l : List Nat} (h : Good ss l) {i : Nat} (hi : i ∉ l) (hl : i < ss.length) (hd : depsMet ss l i = true) :
    Good ss (l ++ [i]) := by
  refine ⟨?_, ?_, ?_⟩
  · rw [List.nodup_append]
    exact ⟨h.nodup, by simp, fun a ha b hb e => by rw [List.mem_singleton] at hb; subst hb; exact hi (e ▸ ha)⟩
  · intro j hj
    rcases List.mem_append.1 hj with hj | hj
    · exact h.low j hj
    · rw [List.mem_singleton] at hj; omega
  · intro l1 j l2 e k hk
    rcases List.eq_nil_or_concat l2 with rfl | ⟨l3, x, rfl⟩
    · have e' := List.append_inj' e rfl
      have ej : i = j := by simpa using e'.2
      subst ej
      rw [← e'.1]
      exact (depsMet_iff ss l i).1 hd k hk
    · have e1 : l ++ [i] = (l1 ++ j :: l3) ++ [x] := by rw [e]; simp
      have e' := List.append_inj' e1 rfl
      exact h.ordered l1 j l3 e'.1 k hk

theorem pass_good (ss : List Struct) : ∀ (is : List Nat) (done : List Nat), (∀ i ∈ is, i < ss.length) → Good ss done → Good ss (pass ss is done) := by
  intro is
  induction is with
  | nil => intro done _ h; exact h
  | cons i r ih =>
    intro done hl h
    simp only [pass]
    refine ih _ (fun j hj => hl j (List.mem_cons_of_mem _ hj)) ?_
    split
    · exact h
    · rename_i hn
      split
      · rename_i hd
        exact good_add h (by simpa using hn) (hl i List.mem_cons_self) hd
      · exact h

theorem pass_mono (ss : List Struct) : ∀ (is done : List Nat), ∃ l, pass ss is done = done ++ l := by
  intro is
  induction is with
  | nil => exact fun done => ⟨[], (List.append_nil _).symm⟩
  | cons i r ih =>
    intro done
    simp only [pass]
    split
    · exact ih done
    · split
      · obtain ⟨l, h⟩ := ih (done ++ [i])
        exact ⟨i :: l, by rw [h]; simp⟩
      · exact ih done

theorem depsMet_mono {ss : List Struct} {done l : List Nat} {i : Nat} (h : depsMet ss done i = true) : depsMet ss (done ++ l) i = true :=
  (depsMet_iff _ _ _).2 fun k hk => List.mem_append_left _ ((depsMet_iff _ _ _).1 h k hk)

/-- What can be emitted at the beginning of a pass is emitted in it. -/
theorem pass_emits (ss : List Struct) (i : Nat) : ∀ (is done : List Nat), i ∈ is → depsMet ss done i = true → i ∈ pass ss is done := by
  intro is
  induction is with
  | nil => intro done h; cases h
  | cons j r ih =>
    intro done hm hd
    simp only [pass]
    rcases List.mem_cons.1 hm with rfl | hm
    · split
      · rename_i hc
        obtain ⟨l, h⟩ := pass_mono ss r done
        rw [h]
        exact List.mem_append_left _ (by simpa using hc)
      · obtain ⟨l, h⟩ := pass_mono ss r (done ++ [i])
        rw [h]
        exact List.mem_append_left _ (List.mem_append_right _ List.mem_cons_self)
    · split
      · exact ih _ hm hd
      · split
        · exact ih _ hm (depsMet_mono hd)
        · exact ih _ hm hd

theorem length_le {n : Nat} {l : List Nat} (h : l.Nodup) (hl : ∀ i ∈ l, i < n) : l.length ≤ n := by
  have : l ⊆ List.range n := fun i hi => List.mem_range.2 (hl i hi)
  have := (List.subperm_of_subset h this).length_le
  simpa using this

theorem full {n : Nat} {l : List Nat} (h : l.Nodup) (hl : ∀ i ∈ l, i < n) (hn : n ≤ l.length) : ∀ i, i < n → i ∈ l := by
  have hs : l ⊆ List.range n := fun i hi => List.mem_range.2 (hl i hi)
  have hp := List.subperm_of_subset h hs
  have := hp.perm_of_length_le (by simpa using hn)
  intro i hi
  exact this.mem_iff.2 (List.mem_range.2 hi)

/-- No struct holds itself: there is an order of them. -/
def Acyclic (ss : List Struct) : Prop := ∃ rank : Nat → Nat, ∀ i k, Needs ss i k → rank k < rank i

theorem exists_min (rank : Nat → Nat) : ∀ (m : Nat) (P : Nat → Prop), (∃ i, P i ∧ rank i ≤ m) → ∃ i, P i ∧ ∀ j, P j → rank i ≤ rank j := by
  intro m
  induction m with
  | zero => rintro P ⟨i, hi, h⟩; exact ⟨i, hi, fun j _ => by omega⟩
  | succ m ih =>
    rintro P ⟨i, hi, h⟩
    by_cases hx : ∃ j, P j ∧ rank j ≤ m
    · exact ih P hx
    · refine ⟨i, hi, fun j hj => ?_⟩
      apply Classical.byContradiction
      intro hc
      exact hx ⟨j, hj, by omega⟩

theorem pass_grows {ss : List Struct} (ha : Acyclic ss) {done : List Nat} (hg : Good ss done) (hlt : done.length < ss.length) :
    done.length < (pass ss (List.range ss.length) done).length := by
  obtain ⟨rank, hr⟩ := ha
  have hx : ∃ i, i < ss.length ∧ i ∉ done := by
    apply Classical.byContradiction
    intro hc
    have hall : List.range ss.length ⊆ done := by
      intro i hi
      apply Classical.byContradiction
      intro hn
      exact hc ⟨i, List.mem_range.1 hi, hn⟩
    have := (List.subperm_of_subset (List.nodup_range) hall).length_le
    simp at this
    omega
  obtain ⟨i0, h0, h1⟩ := hx
  obtain ⟨i, ⟨hi, hn⟩, hmin⟩ := exists_min rank (rank i0) (fun i => i < ss.length ∧ i ∉ done) ⟨i0, ⟨h0, h1⟩, Nat.le_refl _⟩
  have hd : depsMet ss done i = true := (depsMet_iff _ _ _).2 fun k hk => by
    apply Classical.byContradiction
    intro hc
    obtain ⟨_, d, e, _, he, _⟩ := id hk
    have := hmin k ⟨(List.getElem?_eq_some_iff.1 he).1, hc⟩
    have := hr i k hk
    omega
  have hm := pass_emits ss i _ done (List.mem_range.2 hi) hd
  obtain ⟨l, e⟩ := pass_mono ss (List.range ss.length) done
  rw [e] at hm ⊢
  rcases List.mem_append.1 hm with h | h
  · exact absurd h hn
  · have := List.length_pos_of_mem h
    rw [List.length_append]; omega

theorem passes_good (ss : List Struct) : ∀ (n : Nat) (done : List Nat), Good ss done → Good ss (passes ss n done) := by
  intro n
  induction n with
  | zero => intro done h; exact h
  | succ n ih =>
    intro done h
    simp only [passes]
    split
    · exact ih _ (pass_good ss _ _ (fun i hi => List.mem_range.1 hi) h)
    · exact h

theorem passes_full {ss : List Struct} (ha : Acyclic ss) : ∀ (n : Nat) (done : List Nat), Good ss done → ss.length ≤ done.length + n →
    ss.length ≤ (passes ss n done).length := by
  intro n
  induction n with
  | zero => intro done _ h; exact h
  | succ n ih =>
    intro done hg h
    simp only [passes]
    split
    · rename_i hlt
      refine ih _ (pass_good ss _ _ (fun i hi => List.mem_range.1 hi) hg) ?_
      have := pass_grows ha hg hlt
      omega
    · omega

/-- Each type definition comes after those it needs, and every struct is there. -/
def Declared (es : List Enum) (ss : List Struct) (l : List Item) : Prop :=
  (∀ s ∈ ss, ∃ x ∈ l, x.name = s.name ∧ x.needs = s.fields)
  ∧ ∀ l1 x l2, l = l1 ++ x :: l2 → ∀ t ∈ x.needs, (t ∈ es.map (·.name) ∨ t ∈ ss.map (·.name)) → t ∈ l1.map (·.name)

/-- Names are different. -/
def Distinct (es : List Enum) (ss : List Struct) : Prop := (es.map (·.name) ++ ss.map (·.name)).Nodup

end De

/-- For every program in which no struct holds itself and names are different, the C text defines every struct, and types before they are
used. -/
def C260_statement : Prop := ∀ (es : List Enum) (ss : List Struct), Distinct es ss → Acyclic ss → (∀ s ∈ ss, s.name ∉ s.fields) →
  Declared es ss (emitted es ss)

/-- A payload that is a struct comes before the struct. -/
theorem C260_witness : (emitted [⟨lit "Shape", [lit "Point"]⟩] [⟨lit "Point", [lit "int"]⟩]).map (·.name) = [lit "Shape", lit "Point"] := by
  decide +kernel

theorem C260_fails : ¬ C260_statement := by
  intro h
  have h1 := h [⟨lit "Shape", [lit "Point"]⟩] [⟨lit "Point", [lit "int"]⟩] (by unfold Distinct; decide +kernel)
    ⟨fun _ => 0, fun i k hk => by
      obtain ⟨hne, d, e, hd, he, _⟩ := hk
      have a := (List.getElem?_eq_some_iff.1 hd).1
      have b := (List.getElem?_eq_some_iff.1 he).1
      simp at a b
      omega⟩ (by decide +kernel)
  have h2 := h1.2 [] ⟨lit "Shape", [lit "Point"]⟩ [⟨lit "Point", [lit "int"]⟩] (by rfl) (lit "Point") List.mem_cons_self (Or.inr List.mem_cons_self)
  cases h2

/-- The struct after the first 256 is not defined at all. -/
theorem C260_limit_fails : ¬ ∀ ss : List Struct, Acyclic ss → ∀ s ∈ ss, ∃ x ∈ emitted [] ss, x.name = s.name := by
  intro h
  have hac : ∀ ss : List Struct, (∀ s ∈ ss, s.fields = [lit "int"]) → (∀ s ∈ ss, s.name ≠ lit "int") → Acyclic ss := by
    intro ss h1 h2
    refine ⟨fun _ => 0, fun i k hk => ?_⟩
    obtain ⟨hne, d, e, hd, he, hm⟩ := hk
    rw [h1 d (List.mem_of_getElem? hd), List.mem_singleton] at hm
    exact absurd hm (h2 e (List.mem_of_getElem? he))
  have key : ∀ A : List Struct, A.length = 256 → (∀ s ∈ A, s = ⟨lit "A", [lit "int"]⟩) → False := by
    intro A hA hs
    have hm : ∀ s ∈ A ++ [⟨lit "B", [lit "int"]⟩], s = ⟨lit "A", [lit "int"]⟩ ∨ s = ⟨lit "B", [lit "int"]⟩ := by
      intro s h
      rcases List.mem_append.1 h with h | h
      · exact Or.inl (hs s h)
      · exact Or.inr (List.mem_singleton.1 h)
    obtain ⟨x, hx, hn⟩ := h (A ++ [⟨lit "B", [lit "int"]⟩]) (hac _ (fun s hs => by rcases hm s hs with rfl | rfl <;> rfl)
      (fun s hs => by rcases hm s hs with rfl | rfl <;> decide)) ⟨lit "B", [lit "int"]⟩ (List.mem_append_right _ List.mem_cons_self)
    have ht : (A ++ [(⟨lit "B", [lit "int"]⟩ : Struct)]).take maxStructs = A := List.take_left' hA
    simp only [emitted, ht, List.map_nil, List.nil_append] at hx
    obtain ⟨i, _, hi⟩ := List.mem_filterMap.1 hx
    obtain ⟨d, hd, e⟩ := Option.map_eq_some_iff.1 hi
    have := hs d (List.mem_of_getElem? hd)
    rw [← e, this] at hn
    exact absurd hn (by decide)
  exact key (List.replicate 256 ⟨lit "A", [lit "int"]⟩) List.length_replicate (fun s h => List.eq_of_mem_replicate h)

/-- What holds: with at most 256 structs, none of which holds itself, each is defined once, after those it holds and after all enums; so types
are defined before they are used if no payload is a struct or an enum of the program. Missing: such payloads, and more structs. -/
theorem C260_partial (es : List Enum) (ss : List Struct) (ha : Acyclic ss) (hl : ss.length ≤ 256) :
    (order ss).Perm (List.range ss.length) ∧ Ordered ss (order ss)
    ∧ ((∀ s ∈ ss, s.name ∉ s.fields) → (∀ e ∈ es, ∀ t ∈ e.payload, t ∉ es.map (·.name) ∧ t ∉ ss.map (·.name)) → Declared es ss (emitted es ss)) := by
  have hg := passes_good ss ss.length [] (good_nil ss)
  have hf := passes_full ha ss.length [] (good_nil ss) (by simp)
  have hall := full hg.nodup hg.low hf
  have hrest : (List.range ss.length).filter (fun i => !(passes ss ss.length []).contains i) = [] := by
    rw [List.filter_eq_nil_iff]
    intro i hi
    have := hall i (List.mem_range.1 hi)
    simp [this]
  have ho : order ss = passes ss ss.length [] := by
    simp only [order, hrest, List.append_nil]
  have hp : (order ss).Perm (List.range ss.length) := by
    rw [ho]
    exact (List.perm_ext_iff_of_nodup hg.nodup List.nodup_range).2 fun i => ⟨fun h => List.mem_range.2 (hg.low i h), fun h => hall i (List.mem_range.1 h)⟩
  refine ⟨hp, by rw [ho]; exact hg.ordered, ?_⟩
  intro hself hpay
  have ht : ss.take maxStructs = ss := List.take_of_length_le hl
  have hem : emitted es ss = es.map (fun e => (⟨e.name, e.payload⟩ : Item)) ++ (order ss).filterMap (fun i => (ss[i]?).map fun d => (⟨d.name, d.fields⟩ : Item)) := by
    simp only [emitted, ht]
  constructor
  · intro s hs
    obtain ⟨i, hi⟩ := List.mem_iff_getElem?.1 hs
    refine ⟨⟨s.name, s.fields⟩, ?_, rfl, rfl⟩
    rw [hem]
    refine List.mem_append_right _ (List.mem_filterMap.2 ⟨i, ?_, by rw [hi]; rfl⟩)
    exact hp.mem_iff.2 (List.mem_range.2 (List.getElem?_eq_some_iff.1 hi).1)
  · intro l1 x l2 e t htn hdecl
    rw [hem] at e
    rcases List.append_eq_append_iff.1 e with ⟨m, e1, e2⟩ | ⟨m, e1, e2⟩
    · -- the type is a struct
      rcases hdecl with hd | hd
      · rw [e1, List.map_append]
        refine List.mem_append_left _ ?_
        rw [List.map_map]
        exact hd
      · obtain ⟨s, hs, hsn⟩ := List.mem_map.1 hd
        obtain ⟨k, hk⟩ := List.mem_iff_getElem?.1 hs
        obtain ⟨o1, o2, eo, f1, f2⟩ := List.filterMap_eq_append_iff.1 e2
        obtain ⟨p1, i, p2, ep, g1, g2, g3⟩ := List.filterMap_eq_cons_iff.1 f2
        obtain ⟨d, hd, ed⟩ := Option.map_eq_some_iff.1 g2
        have hne : k ≠ i := by
          intro ek
          rw [ek, hd] at hk
          have eds := Option.some.inj hk
          rw [← ed, eds] at htn
          exact hself s hs (by rw [hsn]; exact htn)
        have hneed : Needs ss i k := ⟨hne, d, s, hd, hk, by rw [hsn]; rw [← ed] at htn; exact htn⟩
        have hord : Ordered ss (order ss) := by rw [ho]; exact hg.ordered
        have hk1 := hord (o1 ++ p1) i p2 (by rw [eo, ep, List.append_assoc]) k hneed
        rw [e1, List.map_append]
        refine List.mem_append_right _ ?_
        rcases List.mem_append.1 hk1 with h | h
        · rw [← f1]
          refine List.mem_map.2 ⟨⟨s.name, s.fields⟩, List.mem_filterMap.2 ⟨k, h, by rw [hk]; rfl⟩, hsn⟩
        · have := g1 k h
          rw [hk] at this
          cases this
    · -- the type is an enum
      cases m with
      | nil =>
        -- the first of the structs
        have e2' : (order ss).filterMap (fun i => (ss[i]?).map fun d => (⟨d.name, d.fields⟩ : Item)) = x :: l2 := by
          simpa using e2.symm
        have e1' : es.map (fun e => (⟨e.name, e.payload⟩ : Item)) = l1 := by simpa using e1
        rcases hdecl with hd | hd
        · rw [← e1', List.map_map]; exact hd
        · obtain ⟨s, hs, hsn⟩ := List.mem_map.1 hd
          obtain ⟨k, hk⟩ := List.mem_iff_getElem?.1 hs
          obtain ⟨p1, i, p2, ep, g1, g2, g3⟩ := List.filterMap_eq_cons_iff.1 e2'
          obtain ⟨d, hd, ed⟩ := Option.map_eq_some_iff.1 g2
          have hne : k ≠ i := by
            intro ek
            rw [ek, hd] at hk
            have eds := Option.some.inj hk
            rw [← ed, eds] at htn
            exact hself s hs (by rw [hsn]; exact htn)
          have hneed : Needs ss i k := ⟨hne, d, s, hd, hk, by rw [hsn]; rw [← ed] at htn; exact htn⟩
          have hord : Ordered ss (order ss) := by rw [ho]; exact hg.ordered
          have hk1 := hord p1 i p2 ep k hneed
          have := g1 k hk1
          rw [hk] at this
          cases this
      | cons y m =>
        have ey : y = x := by
          have := congrArg List.head? e2
          exact (Option.some.inj this).symm
        have hx : x ∈ es.map (fun e => (⟨e.name, e.payload⟩ : Item)) := by
          rw [e1, ← ey]; exact List.mem_append_right _ List.mem_cons_self
        obtain ⟨en, hen, eq⟩ := List.mem_map.1 hx
        rw [← eq] at htn
        have := hpay en hen t htn
        rcases hdecl with h | h
        · exact absurd h this.1
        · exact absurd h this.2

example : order [⟨lit "A", [lit "B", lit "C"]⟩, ⟨lit "B", [lit "C"]⟩, ⟨lit "C", [lit "int"]⟩] = [2, 1, 0] := by decide +kernel

/-! ### C261 -/

namespace De

/-- Explicit values are above all values before. -/
def Rising : Int → List Init → Prop
  | _, [] => True
  | next, .auto :: r => Rising (next + 1) r
  | next, .int v :: r => next ≤ v ∧ Rising (v + 1) r
  | next, .expr v :: r => next ≤ v ∧ Rising (v + 1) r

theorem rising_values : ∀ (l : List Init) (j : Nat) (next : Int), Rising next l →
    ∃ vs, values false j next l = some vs ∧ vs.Pairwise (· < ·) ∧ vs.length = l.length ∧ ∀ v ∈ vs, next ≤ v := by
  intro l
  induction l with
  | nil => intro j next _; exact ⟨[], rfl, List.Pairwise.nil, rfl, fun _ h => by cases h⟩
  | cons i r ih =>
    intro j next h
    have step : ∀ v : Int, next ≤ v → Rising (v + 1) r → ∃ vs, (values false (j + 1) (v + 1) r).map (v :: ·) = some vs
        ∧ vs.Pairwise (· < ·) ∧ vs.length = (i :: r).length ∧ ∀ v ∈ vs, next ≤ v := by
      intro v hv hr
      obtain ⟨vs, h1, h2, h3, h4⟩ := ih (j + 1) (v + 1) hr
      refine ⟨v :: vs, by rw [h1]; rfl, List.pairwise_cons.2 ⟨fun w hw => ?_, h2⟩, by simp [h3], fun w hw => ?_⟩
      · have := h4 w hw; omega
      · rcases List.mem_cons.1 hw with rfl | hw
        · exact hv
        · have := h4 w hw; omega
    cases i with
    | auto => exact step next (Int.le_refl _) h
    | int v => exact step v h.1 h.2
    | expr v => exact step v h.1 h.2

theorem int_values (flags : Bool) : ∀ (l : List Int) (j : Nat) (next : Int), values flags j next (l.map .int) = some l := by
  intro l
  induction l with
  | nil => intro j next; rfl
  | cons v r ih =>
    intro j next
    simp only [List.map_cons, values, ih, Option.map_some]

theorem int_dup : ∀ (l : List Int), dupInts (l.map .int) = false ↔ l.Nodup := by
  intro l
  induction l with
  | nil => exact ⟨fun _ => List.nodup_nil, fun _ => rfl⟩
  | cons v r ih =>
    simp only [List.map_cons, dupInts, List.nodup_cons, ← ih, Bool.or_eq_false_iff]
    have : (r.map Init.int).contains (.int v) = false ↔ v ∉ r := by
      rw [← Bool.not_eq_true, List.contains_iff_mem]
      apply not_congr
      constructor
      · intro h
        obtain ⟨w, hw, e⟩ := List.mem_map.1 h
        cases e; exact hw
      · intro h; exact List.mem_map.2 ⟨v, h, rfl⟩
    rw [this]

theorem flag_values : ∀ (n j : Nat) (next : Int), j + n ≤ 31 →
    values true j next (List.replicate n .auto) = some ((List.range n).map fun i => (2 : Int) ^ (j + i)) := by
  intro n
  induction n with
  | zero => intro j next _; rfl
  | succ n ih =>
    intro j next h
    rw [List.replicate_succ, values]
    simp only [if_true, if_pos (show j ≤ 30 by omega)]
    rw [ih (j + 1) _ (by omega), Option.map_some, List.range_succ_eq_map, List.map_cons, List.map_map]
    congr 2
    apply List.map_congr_left
    intro i _
    show (2 : Int) ^ (j + 1 + i) = 2 ^ (j + (i + 1))
    congr 1; omega

theorem flag_none : ∀ (n j : Nat) (next : Int), j ≤ 31 → 31 < j + n → values true j next (List.replicate n .auto) = none := by
  intro n
  induction n with
  | zero => intro j next h1 h2; omega
  | succ n ih =>
    intro j next h1 h2
    rw [List.replicate_succ, values]
    by_cases h : j ≤ 30
    · simp only [if_true, if_pos h]
      rw [ih (j + 1) _ (by omega) (by omega)]; rfl
    · simp only [if_true, if_neg h]

end De

/-- The variants of an enum without an error have values, all different. -/
def C261_statement : Prop := ∀ (flags : Bool) (l : List Init), dupInts l = false → ∃ vs, values flags 0 0 l = some vs ∧ vs.Nodup

/-- `A = 1`, `B`, `C = 2` has two values 2; `-1` twice is not noticed; and a set of flags has at most 31 of them. -/
theorem C261_witness : dupInts [.int 1, .auto, .int 2] = false ∧ values false 0 0 [.int 1, .auto, .int 2] = some [1, 2, 2]
    ∧ dupInts [.expr (-1), .expr (-1)] = false ∧ values false 0 0 [.expr (-1), .expr (-1)] = some [-1, -1]
    ∧ values true 0 0 (List.replicate 32 .auto) = none ∧ values true 0 0 [.auto, .int 4, .auto] = some [1, 4, 4] := by
  decide +kernel

theorem C261_fails : ¬ C261_statement := by
  intro h
  obtain ⟨vs, h1, h2⟩ := h false [.int 1, .auto, .int 2] (by decide)
  rw [C261_witness.2.1] at h1
  cases h1
  exact absurd h2 (by decide)

/-- What holds: values are different and rising if each explicit value, after the first variant, is above those before; in particular without
explicit values, where they are the numbers from 0. If all are integer literals, the check is exact. Flags without explicit values are the
powers of two, up to 31 of them, and not more. Missing: literals and automatic values together, other expressions. -/
theorem C261_partial :
    (∀ (i : Init) (l : List Init), (∀ v, (i = .int v ∨ i = .expr v) → Rising (v + 1) l) → (i = .auto → Rising 1 l) →
      ∃ vs, values false 0 0 (i :: l) = some vs ∧ vs.Pairwise (· < ·) ∧ vs.length = l.length + 1)
    ∧ (∀ n, values false 0 0 (List.replicate n .auto) = some ((List.range n).map fun (i : Nat) => (i : Int)))
    ∧ (∀ (flags : Bool) (l : List Int), values flags 0 0 (l.map .int) = some l ∧ (dupInts (l.map .int) = false ↔ l.Nodup))
    ∧ (∀ n, n ≤ 31 → values true 0 0 (List.replicate n .auto) = some ((List.range n).map fun i => (2 : Int) ^ i))
    ∧ (∀ n, 31 < n → values true 0 0 (List.replicate n .auto) = none) := by
  refine ⟨?_, ?_, fun flags l => ⟨int_values flags l 0 0, int_dup l⟩, ?_, fun n hn => flag_none n 0 0 (by omega) (by omega)⟩
  · intro i l h1 h2
    have step : ∀ v : Int, Rising (v + 1) l → ∃ vs, (values false 1 (v + 1) l).map (v :: ·) = some vs ∧ vs.Pairwise (· < ·) ∧ vs.length = l.length + 1 := by
      intro v hr
      obtain ⟨vs, e1, e2, e3, e4⟩ := rising_values l 1 (v + 1) hr
      refine ⟨v :: vs, by rw [e1]; rfl, List.pairwise_cons.2 ⟨fun w hw => ?_, e2⟩, by simp [e3]⟩
      have := e4 w hw; omega
    cases i with
    | auto => exact step 0 (h2 rfl)
    | int v => exact step v (h1 v (Or.inl rfl))
    | expr v => exact step v (h1 v (Or.inr rfl))
  · have : ∀ (n j : Nat) (next : Int), values false j next (List.replicate n .auto) = some ((List.range n).map fun (i : Nat) => next + (i : Int)) := by
      intro n
      induction n with
      | zero => intro j next; rfl
      | succ n ih =>
        intro j next
        rw [List.replicate_succ, values]
        simp only [Bool.false_eq_true, if_false]
        rw [ih, Option.map_some, List.range_succ_eq_map, List.map_cons, List.map_map]
        congr 2
        · simp
        · apply List.map_congr_left
          intro i _
          show next + 1 + (i : Int) = next + ((i + 1 : Nat) : Int)
          omega
    intro n
    rw [this]
    congr 1
    apply List.map_congr_left
    intro i _
    omega
  · intro n hn
    rw [flag_values n 0 0 (by omega)]
    simp only [Nat.zero_add]

example : Rising 1 [.auto, .int 5, .auto, .expr 9] := by
  refine ⟨by decide, by decide, trivial⟩

/-! ### C262 -/

namespace De

/-- The tokens of types with commas between them. -/
def listed : List (List Str) → List Tok
  | [] => []
  | [t] => t.map .word
  | t :: r => t.map .word ++ .comma :: listed r

theorem pay_word_comma (a : Str) (r : List Tok) : payloads (.word a :: .comma :: r) = (a :: (payloads r).1, (payloads r).2) := by
  rw [payloads] <;> first | rfl | (intro h; cases h)
theorem pay_word_word (a b : Str) (r : List Tok) :
    payloads (.word a :: .word b :: r) = (a :: (payloads (.word b :: r)).1, (payloads (.word b :: r)).2) := by
  rw [payloads] <;> first | rfl | (intro h; cases h)
theorem pay_end (r : List Tok) : payloads (.rparen :: r) = ([], .rparen :: r) := by
  cases r <;> rfl
theorem pay_word_end (a : Str) (r : List Tok) : payloads (.word a :: .rparen :: r) = ([a], .rparen :: r) := by
  rw [payloads] <;> first | (rw [pay_end]; rfl) | (intro h; cases h)

theorem pay_words_comma (t : List Str) (ht : t ≠ []) (X : List Tok) :
    payloads (t.map .word ++ .comma :: X) = (t ++ (payloads X).1, (payloads X).2) := by
  induction t with
  | nil => exact absurd rfl ht
  | cons a r ih =>
    cases r with
    | nil => exact pay_word_comma a _
    | cons b r =>
      have := ih (by simp)
      rw [List.map_cons, List.map_cons, List.cons_append, List.cons_append, pay_word_word]
      rw [List.map_cons, List.cons_append] at this
      rw [this]; rfl

theorem pay_words_end (t : List Str) (X : List Tok) : payloads (t.map .word ++ .rparen :: X) = (t, .rparen :: X) := by
  induction t with
  | nil => exact pay_end X
  | cons a r ih =>
    cases r with
    | nil => exact pay_word_end a _
    | cons b r =>
      rw [List.map_cons, List.map_cons, List.cons_append, List.cons_append, pay_word_word]
      rw [List.map_cons, List.cons_append] at ih
      rw [ih]

theorem pay_listed (rest : List Tok) : ∀ ts : List (List Str), (∀ t ∈ ts, t ≠ []) → payloads (listed ts ++ .rparen :: rest) = (ts.flatten, .rparen :: rest) := by
  intro ts
  induction ts with
  | nil => intro _; exact pay_end rest
  | cons t r ih =>
    intro h
    cases r with
    | nil =>
      rw [listed, pay_words_end]
      simp
    | cons u r =>
      have := ih (fun t ht => h t (List.mem_cons_of_mem _ ht))
      rw [listed, List.append_assoc, List.cons_append, pay_words_comma t (h t List.mem_cons_self)]
      · simp only [this]
        rfl
      · exact fun h => by cases h

end De

/-- The payload types of a variant are those written; a type is written with one or more tokens. -/
def C262_statement : Prop := ∀ (ts : List (List Str)) (rest : List Tok), (∀ t ∈ ts, t ≠ []) →
  payloads (listed ts ++ .rparen :: rest) = (ts.map List.flatten, .rparen :: rest)

/-- An array of integers is taken for three types. -/
theorem C262_witness : payloads [.word (lit "["), .word (lit "int"), .word (lit "]"), .rparen] = ([lit "[", lit "int", lit "]"], [.rparen]) := by
  decide +kernel

theorem C262_fails : ¬ C262_statement := by
  intro h
  have := h [[lit "[", lit "int", lit "]"]] [] (by simp)
  exact absurd this (by decide +kernel)

/-- What holds: every token is taken for a type, so that the types are those written exactly if each is one token.
Missing: arrays, maps, pointers and functions. -/
theorem C262_partial (ts : List (List Str)) (rest : List Tok) (h : ∀ t ∈ ts, t ≠ []) :
    payloads (listed ts ++ .rparen :: rest) = (ts.flatten, .rparen :: rest)
    ∧ ((payloads (listed ts ++ .rparen :: rest)).1.length = ts.length ↔ ∀ t ∈ ts, t.length = 1)
    ∧ ((∀ t ∈ ts, t.length = 1) → payloads (listed ts ++ .rparen :: rest) = (ts.map List.flatten, .rparen :: rest)) := by
  have e := pay_listed rest ts h
  refine ⟨e, ?_, ?_⟩
  · rw [e]
    show ts.flatten.length = ts.length ↔ _
    have : ∀ ts : List (List Str), (∀ t ∈ ts, t ≠ []) → ts.length ≤ ts.flatten.length ∧ (ts.flatten.length = ts.length ↔ ∀ t ∈ ts, t.length = 1) := by
      intro ts
      induction ts with
      | nil => intro _; simp
      | cons t r ih =>
        intro h
        obtain ⟨h1, h2⟩ := ih (fun t ht => h t (List.mem_cons_of_mem _ ht))
        have hp := List.length_pos_iff.2 (h t List.mem_cons_self)
        simp only [List.flatten_cons, List.length_append, List.length_cons, List.forall_mem_cons]
        constructor
        · omega
        · rw [← h2]; omega
    exact (this ts h).2
  · intro h1
    rw [e]
    congr 1
    clear e h
    induction ts with
    | nil => rfl
    | cons t r ih =>
      obtain ⟨a, rfl⟩ := List.length_eq_one_iff.1 (h1 t List.mem_cons_self)
      rw [List.flatten_cons, List.map_cons, ih (fun t ht => h1 t (List.mem_cons_of_mem _ ht))]
      simp

example : payloads [.word (lit "float"), .comma, .word (lit "float"), .rparen] = ([lit "float", lit "float"], [.rparen]) := by decide +kernel

/-! ### C263 -/

namespace De

/-- What the program has for a string variant. -/
def enumRun (s : Str) : Option Str := (cDec .norm (enumString s).1).bind fun d => made false d (some (enumString s).2)

theorem enumRun_length {s w : Str} (h : enumRun s = some w) : w.length = s.length := by
  obtain ⟨d, _, h2⟩ := Option.bind_eq_some_iff.1 h
  change (if s.length ≤ d.length + 1 then some ((d ++ [0]).take s.length) else none) = some w at h2
  split at h2
  · rename_i hl
    cases h2
    rw [List.length_take, List.length_append, List.length_singleton]
    omega
  · cases h2

theorem cDec_plain : ∀ s : Str, (∀ c ∈ s, c ∉ ([10, 34, 92] : List Byte)) → cDec .norm s = some s := by
  intro s
  induction s with
  | nil => intro _; rfl
  | cons c r ih =>
    intro h
    rw [LE.dec_norm_plain (h c List.mem_cons_self), ih (fun c hc => h c (List.mem_cons_of_mem _ hc))]; rfl

theorem enumRun_plain {s : Str} (h : ∀ c ∈ s, c ∉ ([10, 34, 92] : List Byte)) : enumRun s = some s := by
  unfold enumRun
  rw [show (enumString s).1 = s from rfl, cDec_plain s h, Option.bind_some]
  show (if s.length ≤ s.length + 1 then some ((s ++ [0]).take s.length) else none) = some s
  rw [if_pos (by omega), List.take_left]

def isPlain : Piece → Bool
  | .plain _ => true
  | _ => false

theorem srcs_length : ∀ ps : List Piece, ps.length ≤ (srcs ps).length ∧ (ps.any (fun p => !isPlain p) = true → ps.length < (srcs ps).length) := by
  intro ps
  induction ps with
  | nil => exact ⟨Nat.le_refl _, fun h => by cases h⟩
  | cons p r ih =>
    have e : srcs (p :: r) = p.src ++ srcs r := List.flatMap_cons
    rw [e, List.length_append, List.length_cons]
    cases p with
    | plain c =>
      refine ⟨by simp only [Piece.src, List.length_singleton]; omega, fun h => ?_⟩
      have := ih.2 (by simpa [isPlain] using h)
      simp only [Piece.src, List.length_singleton]; omega
    | esc c => exact ⟨by simp only [Piece.src, List.length_cons, List.length_nil]; omega, fun _ => by simp only [Piece.src, List.length_cons, List.length_nil]; omega⟩
    | hex a b => exact ⟨by simp only [Piece.src, List.length_cons, List.length_nil]; omega, fun _ => by simp only [Piece.src, List.length_cons, List.length_nil]; omega⟩

end De

/-- A string variant has the value of its literal. -/
def C263_statement : Prop := ∀ raw s v, LitDenotes raw s v → enumRun s = some v

/-- One escape sequence adds a zero byte, two read past the literal; a raw string is read as a C literal. -/
theorem C263_witness : enumRun (lit "a\\nb") = some (lit "a" ++ [10] ++ lit "b" ++ [0]) ∧ enumRun (lit "\\n\\n") = none
    ∧ enumRun (lit "C:\\dir") = none := by
  decide +kernel

theorem C263_fails : ¬ C263_statement := by
  intro h
  have := h true (lit "C:\\dir") _ (.raw (by decide +kernel))
  rw [C263_witness.2.2] at this
  cases this

/-- What holds: an interpreted string has its value exactly if it has no escape sequence, and a raw string if it has no backslash, double
quote or newline. Missing: all others. -/
theorem C263_partial :
    (∀ ps : List Piece, (∀ p ∈ ps, p.Ok) → (enumRun (srcs ps) = some (ps.map Piece.value) ↔ ∀ p ∈ ps, isPlain p = true))
    ∧ (∀ t : Str, (∀ c ∈ t, c ∉ ([10, 34, 92] : List Byte)) → enumRun t = some t) := by
  refine ⟨?_, fun t h => enumRun_plain h⟩
  intro ps hok
  constructor
  · intro h
    have hl := enumRun_length h
    rw [List.length_map] at hl
    apply Classical.byContradiction
    intro hc
    have : ps.any (fun p => !isPlain p) = true := by
      apply Classical.byContradiction
      intro hn
      apply hc
      intro p hp
      apply Classical.byContradiction
      intro hpn
      exact hn (List.any_eq_true.2 ⟨p, hp, by simpa using hpn⟩)
    have := (srcs_length ps).2 this
    omega
  · intro h
    have e : srcs ps = ps.map Piece.value ∧ ∀ c ∈ srcs ps, c ∉ ([10, 34, 92] : List Byte) := by
      induction ps with
      | nil => exact ⟨rfl, fun _ h => by cases h⟩
      | cons p r ih =>
        obtain ⟨e1, e2⟩ := ih (fun p hp => hok p (List.mem_cons_of_mem _ hp)) (fun p hp => h p (List.mem_cons_of_mem _ hp))
        have hp := h p List.mem_cons_self
        have hpo := hok p List.mem_cons_self
        cases p with
        | plain c =>
          have e : srcs (.plain c :: r) = c :: srcs r := rfl
          refine ⟨by rw [e, e1]; rfl, ?_⟩
          intro x hx
          rw [e] at hx
          rcases List.mem_cons.1 hx with rfl | hx
          · exact fun hm => hpo (List.mem_cons_of_mem _ hm)
          · exact e2 x hx
        | esc c => cases hp
        | hex a b => cases hp
    rw [enumRun_plain e.2, e.1]

example : enumRun (lit "north") = some (lit "north") := by decide +kernel

/-! ### C264 -/

namespace De

theorem colonPos_lt : ∀ (s : Str) (d : Int) (n c : Nat), colonPos d n s = some c → c < n + s.length := by
  intro s
  induction s with
  | nil => intro d n c h; cases h
  | cons x r ih =>
    intro d n c h
    simp only [colonPos] at h
    rw [List.length_cons]
    split at h
    · have := ih _ _ _ h; omega
    · split at h
      · have := ih _ _ _ h; omega
      · split at h
        · cases h; omega
        · have := ih _ _ _ h; omega

theorem writes_lt : ∀ (n : Nat) (s : Str) (w : Nat), w ∈ writes n s → w < s.length := by
  intro n
  induction n with
  | zero => intro s w h; cases h
  | succ n ih =>
    intro s w h
    simp only [writes] at h
    split at h
    · have h1 := ih _ _ h
      have h2 := (List.dropWhile_suffix (l := s) (· == 94)).length_le
      omega
    · split at h
      · split at h
        · rename_i hl
          rcases List.mem_cons.1 h with rfl | h
          · omega
          · have h1 := ih _ _ h
            have h2 := (List.takeWhile_prefix (l := (s.drop 1).take (s.length - 2)) (· != 44)).length_le
            rw [List.length_take, List.length_drop] at h2
            omega
        · cases h
      · split at h
        · split at h
          · rename_i hl
            rcases List.mem_cons.1 h with rfl | h
            · omega
            · have hi : ((s.drop 4).take (s.length - 5)).length ≤ s.length - 5 := by
                rw [List.length_take]; omega
              cases hc : colonPos 0 0 ((s.drop 4).take (s.length - 5)) with
              | none => rw [hc] at h; cases h
              | some c =>
                rw [hc] at h
                have hlt := colonPos_lt _ _ _ _ hc
                rcases List.mem_cons.1 h with rfl | h
                · omega
                · rcases List.mem_append.1 h with h | h
                  · have h1 := ih _ _ h
                    rw [List.length_take] at h1; omega
                  · have h1 := ih _ _ h
                    rw [List.length_drop] at h1; omega
          · cases h
        · cases h

end De

/-- Going through the type of a field stays within the buffers, whatever the text. -/
def C264_statement : Prop := ∀ s : Str, ∀ w ∈ writes (s.length + 1) s, w ≤ bufSize

theorem C264_array (s : Str) (h : 258 ≤ s.length) (h1 : s.head? = some 91) (h2 : s.getLast? = some 93) : ∃ w ∈ writes (s.length + 1) s, bufSize < w := by
  refine ⟨s.length - 2 + 1, ?_, ?_⟩
  · have : ¬ s.head? = some 94 := by rw [h1]; decide
    simp only [writes, if_neg this, if_pos h1, if_pos (show 2 < s.length ∧ s.getLast? = some 93 from ⟨by omega, h2⟩)]
    exact List.mem_cons_self
  · simp only [bufSize]; omega

/-- An array of a type with a name of 256 letters goes past the end of the buffer. -/
theorem C264_witness : ∃ w ∈ writes 259 (lit "[" ++ List.replicate 256 65 ++ lit "]"), bufSize < w := by
  have hl : (lit "[" ++ List.replicate 256 65 ++ lit "]" : Str).length = 258 := by
    rw [List.length_append, List.length_append, List.length_replicate]; rfl
  have := C264_array (lit "[" ++ List.replicate 256 65 ++ lit "]") (by rw [hl]; decide) rfl (List.getLast?_concat)
  rw [hl] at this
  exact this

theorem C264_fails : ¬ C264_statement := by
  intro h
  obtain ⟨w, hw, hb⟩ := C264_witness
  have hl : (lit "[" ++ List.replicate 256 65 ++ lit "]" : Str).length = 258 := by
    rw [List.length_append, List.length_append, List.length_replicate]; rfl
  have := h (lit "[" ++ List.replicate 256 65 ++ lit "]") w (by rw [hl]; exact hw)
  omega

/-- What holds: texts of up to 257 bytes are gone through within the buffers, and for arrays no longer ones are. Missing: longer texts. -/
theorem C264_partial (s : Str) :
    (s.length ≤ 257 → ∀ w ∈ writes (s.length + 1) s, w ≤ bufSize)
    ∧ (s.head? = some 91 → s.getLast? = some 93 → 2 < s.length → ((∀ w ∈ writes (s.length + 1) s, w ≤ bufSize) ↔ s.length ≤ 257)) := by
  have a : s.length ≤ 257 → ∀ w ∈ writes (s.length + 1) s, w ≤ bufSize := by
    intro h w hw
    have := writes_lt _ _ _ hw
    simp only [bufSize]; omega
  refine ⟨a, fun h1 h2 _ => ⟨fun h => ?_, a⟩⟩
  apply Classical.byContradiction
  intro hc
  obtain ⟨w, hw, hb⟩ := C264_array s (by omega) h1 h2
  have := h w hw
  omega

example : writes 20 (lit "map[string:[int,3]]") = [15, 7, 6] := by decide +kernel

end Verif.Props
