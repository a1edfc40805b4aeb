import Verif.Model.Escape
import Mathlib.Data.List.Forall2

/-!
# C136: memory safety of stores (STANDARD.md 11.1, 11.5, 11.7)
-/

namespace Verif.Props

open Verif.Escape

namespace Esc

def Good (sc : List Nat) (t : M) (v : Val) : Prop :=
  ∀ b ∈ v.flatten, b.1 ∈ sc ∧ b.2 < t.blocks ∧ isFreed t.freed b = false

def region (root sc : List Nat) (d : Nat) : Option Nat → List Nat
  | none => root
  | some j => sc.drop (d - j)

def bound (S0 : Nat) (t : M) : Option Nat → Nat
  | none => S0
  | some _ => t.blocks

def Fine (root : List Nat) (S0 : Nat) (sc : List Nat) (d : Nat) (t : M) (lvl : Option Nat) (v : Val) : Prop :=
  ∀ b ∈ v.flatten, b.1 ∈ region root sc d lvl ∧ b.2 < bound S0 t lvl ∧ isFreed t.freed b = false

structure Inv (root : List Nat) (S0 G : Nat) (sc : List Nat) (d : Nat) (Φ : Nat → Option Nat → Prop) (t : M) : Prop where
  fine : ∀ l lvl, Φ l lvl → l < t.locs ∧ Fine root S0 sc d t lvl (t.store l)
  lvl : ∀ l j, Φ l (some j) → j ≤ d
  fn : ∀ l a b, Φ l a → Φ l b → a = b
  glob : ∀ l, l < G → Φ l none
  len : d < sc.length
  rt : root <:+ sc.drop d
  ar : ∀ a ∈ sc, a < t.arenas
  fr : ∀ f ∈ t.freed, f.2.2 ≤ t.blocks
  s0 : S0 ≤ t.blocks

/-- The names visible. -/
def Vis (Φ : Nat → Option Nat → Prop) (env : Env) (ctx : Ctx) : Prop :=
  List.Forall₂ (fun p q => p.1 = q.1 ∧ Φ p.2 q.2) env ctx

theorem vis_lookup {Φ : Nat → Option Nat → Prop} {env : Env} {ctx : Ctx} (h : Vis Φ env ctx) (x : Nat) :
    (env.lookup x = none ∧ ctx.lookup x = none) ∨ ∃ l lvl, env.lookup x = some l ∧ ctx.lookup x = some lvl ∧ Φ l lvl := by
  induction h with
  | nil => exact .inl ⟨rfl, rfl⟩
  | @cons p q env ctx h _ ih =>
    obtain ⟨y, l⟩ := p
    obtain ⟨z, lvl⟩ := q
    obtain ⟨rfl, h⟩ := h
    by_cases hx : x = y
    · subst hx
      exact .inr ⟨l, lvl, by simp [List.lookup], by simp [List.lookup], h⟩
    · have e : (x == y) = false := by simpa using hx
      simpa only [List.lookup, e] using ih

theorem Vis.mono {Φ Φ' : Nat → Option Nat → Prop} {env : Env} {ctx : Ctx} (h : Vis Φ env ctx)
    (hs : ∀ l lvl, Φ l lvl → Φ' l lvl) : Vis Φ' env ctx := by
  induction h with
  | nil => exact .nil
  | cons h _ ih => exact .cons ⟨h.1, hs _ _ h.2⟩ ih

/-! ### Blocks -/

theorem freed_fresh {t : M} (h : ∀ f ∈ t.freed, f.2.2 ≤ t.blocks) {b : Block} (hb : t.blocks ≤ b.2) : isFreed t.freed b = false := by
  rw [isFreed, List.any_eq_false]
  intro f hf
  have := h f hf
  simp only [Bool.and_eq_true, beq_iff_eq, Nat.ble_eq, Nat.blt_eq]
  omega

theorem mem_copyBlocks {a : Nat} : ∀ {l : List Block} {n : Nat} {b : Block}, b ∈ copyBlocks a n l → b.1 = a ∧ n ≤ b.2 ∧ b.2 < n + l.length
  | [], _, _, h => by simp [copyBlocks] at h
  | _ :: r, n, b, h => by
    rw [copyBlocks, List.mem_cons] at h
    rcases h with rfl | h
    · simp
    · have := mem_copyBlocks h
      simp only [List.length_cons]
      omega

theorem mem_copyFrom {a : Nat} : ∀ {v : Val} {n : Nat} {b : Block}, b ∈ (copyFrom a n v).flatten →
    b.1 = a ∧ n ≤ b.2 ∧ b.2 < n + v.flatten.length
  | [], _, _, h => by simp [copyFrom] at h
  | l :: v, n, b, h => by
    rw [copyFrom, List.flatten_cons, List.mem_append] at h
    rw [List.flatten_cons, List.length_append]
    rcases h with h | h
    · have := mem_copyBlocks h
      omega
    · have := mem_copyFrom h
      omega

/-- More blocks. -/
def grow (t : M) (m : Nat) : M := { t with blocks := t.blocks + m }

theorem Inv.grow {root : List Nat} {S0 G : Nat} {sc : List Nat} {d : Nat} {Φ : Nat → Option Nat → Prop} {t : M}
    (h : Inv root S0 G sc d Φ t) (m : Nat) : Inv root S0 G sc d Φ (grow t m) where
  fine l lvl hl := by
    obtain ⟨h1, h2⟩ := h.fine l lvl hl
    refine ⟨h1, fun b hb => ?_⟩
    obtain ⟨h3, h4, h5⟩ := h2 b hb
    refine ⟨h3, ?_, h5⟩
    cases lvl with
    | none => exact h4
    | some j => exact Nat.lt_of_lt_of_le h4 (Nat.le_add_right _ _)
  lvl := h.lvl
  fn := h.fn
  glob := h.glob
  len := h.len
  rt := h.rt
  ar := h.ar
  fr f hf := Nat.le_trans (h.fr f hf) (Nat.le_add_right _ _)
  s0 := Nat.le_trans h.s0 (Nat.le_add_right _ _)

theorem Good.grow {sc : List Nat} {t : M} {v : Val} (h : Good sc t v) (m : Nat) : Good sc (grow t m) v :=
  fun b hb => ⟨(h b hb).1, Nat.lt_of_lt_of_le (h b hb).2.1 (Nat.le_add_right _ _), (h b hb).2.2⟩

theorem Inv.flip {root : List Nat} {S0 G : Nat} {sc : List Nat} {d : Nat} {Φ : Nat → Option Nat → Prop} {t : M}
    (h : Inv root S0 G sc d Φ t) (cs : List Bool) : Inv root S0 G sc d Φ { t with coins := cs } :=
  ⟨h.fine, h.lvl, h.fn, h.glob, h.len, h.rt, h.ar, h.fr, h.s0⟩

theorem flip_eq (t : M) : ∃ cs, (flip t).2 = { t with coins := cs } := by
  unfold Escape.flip
  cases h : t.coins with
  | nil => exact ⟨[], by simp [← h]⟩
  | cons c cs => exact ⟨cs, rfl⟩

theorem drop_sub {sc : List Nat} {m n : Nat} (h : m ≤ n) {a : Nat} (ha : a ∈ sc.drop n) : a ∈ sc.drop m := by
  have : sc.drop n = (sc.drop m).drop (n - m) := by rw [List.drop_drop]; congr 1; omega
  rw [this] at ha
  exact List.mem_of_mem_drop ha

theorem Inv.region_sub {root : List Nat} {S0 G : Nat} {sc : List Nat} {d : Nat} {Φ : Nat → Option Nat → Prop} {t : M}
    (h : Inv root S0 G sc d Φ t) (lvl : Option Nat) {a : Nat} (ha : a ∈ region root sc d lvl) : a ∈ sc := by
  cases lvl with
  | none => exact List.mem_of_mem_drop (h.rt.subset ha)
  | some j => exact List.mem_of_mem_drop ha

/-- What a variable refers to can be used. -/
theorem Inv.good {root : List Nat} {S0 G : Nat} {sc : List Nat} {d : Nat} {Φ : Nat → Option Nat → Prop} {t : M}
    (h : Inv root S0 G sc d Φ t) {lvl : Option Nat} {v : Val} (hf : Fine root S0 sc d t lvl v) : Good sc t v := by
  intro b hb
  obtain ⟨h1, h2, h3⟩ := hf b hb
  refine ⟨h.region_sub lvl h1, ?_, h3⟩
  cases lvl with
  | none => exact Nat.lt_of_lt_of_le h2 h.s0
  | some j => exact h2

theorem Inv.var {root : List Nat} {S0 G : Nat} {sc : List Nat} {d : Nat} {Φ : Nat → Option Nat → Prop} {t : M}
    (h : Inv root S0 G sc d Φ t) {env : Env} {ctx : Ctx} (hv : Vis Φ env ctx) (x : Nat) : Good sc t (valOf env t x) := by
  unfold valOf
  rcases vis_lookup hv x with ⟨h1, _⟩ | ⟨l, lvl, h1, _, h3⟩
  · rw [h1]
    intro b hb
    simp at hb
  · rw [h1]
    exact h.good (h.fine l lvl h3).2

theorem good_all {sc : List Nat} {t : M} {l : List Block} (h : ∀ b ∈ l, b.1 ∈ sc ∧ b.2 < t.blocks ∧ isFreed t.freed b = false) :
    l.all (live sc t) = true := by
  rw [List.all_eq_true]
  intro b hb
  simp [live, h b hb]

theorem mem_head {v : Val} {b : Block} (h : b ∈ v.headD []) : b ∈ v.flatten := by
  cases v with
  | nil => simp at h
  | cons l v => simp only [List.headD_cons] at h; simp [h]

theorem mem_getD {v : Val} {i : Nat} {b : Block} (h : b ∈ v.getD i []) : b ∈ v.flatten := by
  rw [List.getD_eq_getElem?_getD] at h
  cases e : v[i]? with
  | none => rw [e] at h; simp at h
  | some l =>
    rw [e] at h
    exact List.mem_flatten.2 ⟨l, List.mem_of_getElem? e, h⟩

theorem mem_drop_flatten {v : Val} {n : Nat} {b : Block} (h : b ∈ (v.drop n).flatten) : b ∈ v.flatten := by
  obtain ⟨l, hl, hb⟩ := List.mem_flatten.1 h
  exact List.mem_flatten.2 ⟨l, List.mem_of_mem_drop hl, hb⟩

theorem Inv.head_mem {root : List Nat} {S0 G : Nat} {sc : List Nat} {d : Nat} {Φ : Nat → Option Nat → Prop} {t : M}
    (h : Inv root S0 G sc d Φ t) : sc.headD 0 ∈ sc := by
  have := h.len
  cases sc with
  | nil => simp at this
  | cons a r => simp

theorem alloc_good {root : List Nat} {S0 G : Nat} {sc : List Nat} {d : Nat} {Φ : Nat → Option Nat → Prop} {t : M}
    (h : Inv root S0 G sc d Φ t) {a : Nat} (ha : a ∈ sc) : Good sc (grow t 1) [(alloc a t).1] := by
  intro b hb
  simp only [alloc, List.flatten_cons, List.flatten_nil, List.append_nil, List.mem_singleton] at hb
  subst hb
  exact ⟨ha, by simp [grow], freed_fresh h.fr (Nat.le_refl _)⟩

/-! ### Expressions -/

/-- An expression is evaluated to something usable. -/
def EvalOk (sc : List Nat) (t : M) (r : R (Val × M)) : Prop :=
  ∃ v m, r = .ok (v, grow t m) ∧ Good sc (grow t m) v

theorem grow_grow (t : M) (m n : Nat) : grow (grow t m) n = grow t (m + n) := by simp [grow, Nat.add_assoc]

theorem grow_zero (t : M) : grow t 0 = t := rfl

theorem eval_ok {root : List Nat} {S0 G : Nat} {sc : List Nat} {d : Nat} {Φ : Nat → Option Nat → Prop}
    {env : Env} {ctx : Ctx} (hv : Vis Φ env ctx) :
    ∀ (e : Expr) (t : M), Inv root S0 G sc d Φ t → EvalOk sc t (eval env sc e t)
  | .lit, t, _ => ⟨[], 0, rfl, fun b hb => by simp at hb⟩
  | .var x, t, h => by
    have hg := h.var hv x
    refine ⟨valOf env t x, 0, ?_, hg⟩
    rw [eval, if_pos (good_all hg)]
    rfl
  | .slot x i, t, h => by
    have hg := h.var hv x
    have h1 : ∀ b ∈ (valOf env t x).headD [] ++ (valOf env t x).getD (i + 1) [],
        b.1 ∈ sc ∧ b.2 < t.blocks ∧ isFreed t.freed b = false := by
      intro b hb
      rcases List.mem_append.1 hb with hb | hb
      · exact hg b (mem_head hb)
      · exact hg b (mem_getD hb)
    refine ⟨[(valOf env t x).getD (i + 1) []], 0, ?_, fun b hb => ?_⟩
    · rw [eval, if_pos (good_all h1)]
      rfl
    · exact h1 b (List.mem_append_right _ (by simpa using hb))
  | .comp a b, t, h => by
    obtain ⟨v, m, h1, _⟩ := eval_ok hv a t h
    obtain ⟨w, n, h2, _⟩ := eval_ok hv b (grow t m) (h.grow m)
    refine ⟨[(alloc (sc.headD 0) (grow t (m + n))).1], m + n + 1, ?_, ?_⟩
    · rw [eval, h1]
      simp only [R.bind]
      rw [h2, grow_grow]
      simp only [alloc]
      rw [← grow_grow t (m + n) 1]
      rfl
    · rw [← grow_grow]
      exact alloc_good (h.grow _) h.head_mem
  | .nil, t, h => ⟨[(alloc (sc.headD 0) t).1], 1, rfl, alloc_good h h.head_mem⟩
  | .cons a b, t, h => by
    obtain ⟨v, m, h1, g1⟩ := eval_ok hv a t h
    obtain ⟨w, n, h2, g2⟩ := eval_ok hv b (grow t m) (h.grow m)
    refine ⟨w.headD [] :: v.flatten :: w.drop 1, m + n, ?_, ?_⟩
    · rw [eval, h1]
      simp only [R.bind]
      rw [h2, grow_grow]
    · rw [← grow_grow]
      intro c hc
      simp only [List.flatten_cons, List.mem_append] at hc
      rcases hc with hc | hc | hc
      · exact g2 c (mem_head hc)
      · exact (g1.grow n) c hc
      · exact g2 c (mem_drop_flatten hc)

theorem evals_ok {root : List Nat} {S0 G : Nat} {sc : List Nat} {d : Nat} {Φ : Nat → Option Nat → Prop}
    {env : Env} {ctx : Ctx} (hv : Vis Φ env ctx) :
    ∀ (es : List Expr) (t : M), Inv root S0 G sc d Φ t →
      ∃ vs m, evals env sc es t = .ok (vs, grow t m) ∧ vs.length = es.length ∧ ∀ v ∈ vs, Good sc (grow t m) v
  | [], t, _ => ⟨[], 0, rfl, rfl, by simp⟩
  | e :: es, t, h => by
    obtain ⟨v, m, h1, g1⟩ := eval_ok hv e t h
    obtain ⟨vs, n, h2, hl, g2⟩ := evals_ok hv es (grow t m) (h.grow m)
    refine ⟨v :: vs, m + n, ?_, by simp [hl], ?_⟩
    · rw [evals, h1]
      simp only [R.bind]
      rw [h2, grow_grow]
    · rw [← grow_grow]
      intro w hw
      rcases List.mem_cons.1 hw with rfl | hw
      · exact g1.grow n
      · exact g2 w hw

/-! ### Stores -/

theorem Fine.grow {root : List Nat} {S0 : Nat} {sc : List Nat} {d : Nat} {t : M} {lvl : Option Nat} {v : Val}
    (h : Fine root S0 sc d t lvl v) (m : Nat) : Fine root S0 sc d (grow t m) lvl v := by
  intro b hb
  obtain ⟨h1, h2, h3⟩ := h b hb
  refine ⟨h1, ?_, h3⟩
  cases lvl with
  | none => exact h2
  | some j => exact Nat.lt_of_lt_of_le h2 (Nat.le_add_right _ _)

theorem copy_fine {root : List Nat} {S0 G : Nat} {sc : List Nat} {d : Nat} {Φ : Nat → Option Nat → Prop} {t : M}
    (h : Inv root S0 G sc d Φ t) {a : Nat} {v : Val} {lvl : Option Nat} (hl : lvl.isSome = true) (ha : a ∈ region root sc d lvl) :
    Fine root S0 sc d (copyVal a v t).2 lvl (copyVal a v t).1 := by
  intro b hb
  obtain ⟨h1, h2, h3⟩ := mem_copyFrom hb
  refine ⟨h1 ▸ ha, ?_, freed_fresh h.fr h2⟩
  cases lvl with
  | none => simp at hl
  | some j => exact h3

theorem copy_eq (a : Nat) (v : Val) (t : M) : (copyVal a v t).2 = grow t v.flatten.length := rfl

theorem copy_good {root : List Nat} {S0 G : Nat} {sc : List Nat} {d : Nat} {Φ : Nat → Option Nat → Prop} {t : M}
    (h : Inv root S0 G sc d Φ t) {a : Nat} {v : Val} {csc : List Nat} (ha : a ∈ csc) :
    Good csc (copyVal a v t).2 (copyVal a v t).1 := by
  intro b hb
  obtain ⟨h1, h2, h3⟩ := mem_copyFrom hb
  exact ⟨h1 ▸ ha, h3, freed_fresh h.fr h2⟩

theorem good_fine {root : List Nat} {S0 : Nat} {sc : List Nat} {d : Nat} {t : M} {v : Val} (h : Good sc t v) :
    Fine root S0 sc d t (some d) v := by
  intro b hb
  obtain ⟨h1, h2, h3⟩ := h b hb
  exact ⟨by simpa [region] using h1, h2, h3⟩

/-- The arena of the function lives as long as all its variables. -/
theorem Inv.base_mem {root : List Nat} {S0 G : Nat} {sc : List Nat} {d : Nat} {Φ : Nat → Option Nat → Prop} {t : M}
    (h : Inv root S0 G sc d Φ t) {l j : Nat} (hl : Φ l (some j)) : (sc.drop d).headD 0 ∈ sc.drop (d - j) := by
  have h1 : (sc.drop d).headD 0 ∈ sc.drop d := by
    have := h.len
    cases e : sc.drop d with
    | nil =>
      have := List.drop_eq_nil_iff.1 e
      omega
    | cons a r => simp
  exact drop_sub (Nat.sub_le d j) h1

theorem place_ok {root : List Nat} {S0 G : Nat} {sc : List Nat} {d : Nat} {Φ : Nat → Option Nat → Prop} {t : M}
    (h : Inv root S0 G sc d Φ t) (de : Dest) {v : Val} (hv : Good sc t v) :
    ∃ w m, place de ((sc.drop d).headD 0) sc v t = (w, grow t m) ∧
      ∀ l lvl, Φ l lvl → fits lvl d de = true → Fine root S0 sc d (grow t m) lvl w := by
  cases de with
  | drop => exact ⟨[], 0, rfl, fun l lvl _ _ b hb => by simp at hb⟩
  | share =>
    refine ⟨v, 0, rfl, fun l lvl _ hf => ?_⟩
    have : lvl = some d := by simpa [fits] using hf
    subst this
    exact good_fine hv
  | here =>
    refine ⟨_, v.flatten.length, rfl, fun l lvl _ hf => ?_⟩
    have : lvl = some d := by simpa [fits] using hf
    subst this
    exact good_fine (copy_good h h.head_mem)
  | outer =>
    refine ⟨_, v.flatten.length, rfl, fun l lvl hl hf => ?_⟩
    have hs : lvl.isSome = true := by simpa [fits] using hf
    cases lvl with
    | none => simp at hs
    | some j => exact copy_fine h hs (h.base_mem hl)

theorem Inv.set {root : List Nat} {S0 G : Nat} {sc : List Nat} {d : Nat} {Φ : Nat → Option Nat → Prop} {t : M}
    (h : Inv root S0 G sc d Φ t) {l : Nat} {lvl : Option Nat} (hl : Φ l lvl) {v : Val} (hv : Fine root S0 sc d t lvl v) :
    Inv root S0 G sc d Φ (setLoc t l v) where
  fine l' lvl' hl' := by
    refine ⟨(h.fine l' lvl' hl').1, ?_⟩
    show Fine root S0 sc d t lvl' (if l' = l then v else t.store l')
    by_cases e : l' = l
    · subst e
      rw [if_pos rfl, h.fn _ _ _ hl' hl]
      exact hv
    · rw [if_neg e]
      exact (h.fine l' lvl' hl').2
  lvl := h.lvl
  fn := h.fn
  glob := h.glob
  len := h.len
  rt := h.rt
  ar := h.ar
  fr := h.fr
  s0 := h.s0

/-- What a statement may change. -/
structure Ext (Φ : Nat → Option Nat → Prop) (t t' : M) : Prop where
  locs : t.locs ≤ t'.locs
  arenas : t.arenas ≤ t'.arenas
  blocks : t.blocks ≤ t'.blocks
  freed : ∀ b : Block, b.2 < t.blocks → isFreed t.freed b = false → isFreed t'.freed b = false
  store : ∀ l, l < t.locs → (∀ lvl, ¬ Φ l lvl) → t'.store l = t.store l

theorem Ext.refl (Φ : Nat → Option Nat → Prop) (t : M) : Ext Φ t t :=
  ⟨Nat.le_refl _, Nat.le_refl _, Nat.le_refl _, fun _ _ h => h, fun _ _ _ => rfl⟩

theorem Ext.trans {Φ Φ' : Nat → Option Nat → Prop} {t t1 t2 : M} (h1 : Ext Φ t t1) (h2 : Ext Φ' t1 t2)
    (hs : ∀ l lvl, Φ' l lvl → Φ l lvl ∨ t.locs ≤ l) : Ext Φ t t2 where
  locs := Nat.le_trans h1.locs h2.locs
  arenas := Nat.le_trans h1.arenas h2.arenas
  blocks := Nat.le_trans h1.blocks h2.blocks
  freed b hb h := h2.freed b (Nat.lt_of_lt_of_le hb h1.blocks) (h1.freed b hb h)
  store l hl hn := by
    rw [h2.store l (Nat.lt_of_lt_of_le hl h1.locs) ?_, h1.store l hl hn]
    intro lvl hp
    rcases hs l lvl hp with h | h
    · exact hn lvl h
    · omega

theorem ext_grow (Φ : Nat → Option Nat → Prop) (t : M) (m : Nat) : Ext Φ t (grow t m) :=
  ⟨Nat.le_refl _, Nat.le_refl _, Nat.le_add_right _ _, fun _ _ h => h, fun _ _ _ => rfl⟩

theorem ext_coins (Φ : Nat → Option Nat → Prop) (t : M) (cs : List Bool) : Ext Φ t { t with coins := cs } :=
  ⟨Nat.le_refl _, Nat.le_refl _, Nat.le_refl _, fun _ _ h => h, fun _ _ _ => rfl⟩

theorem ext_set {Φ : Nat → Option Nat → Prop} (t : M) {l : Nat} {lvl : Option Nat} (hl : Φ l lvl) (v : Val) : Ext Φ t (setLoc t l v) := by
  refine ⟨Nat.le_refl _, Nat.le_refl _, Nat.le_refl _, fun _ _ h => h, fun k _ hn => ?_⟩
  exact if_neg fun e : k = l => hn lvl (e ▸ hl)

/-- A variable assigned, of depth `d` or further out. -/
theorem setVar_ok {root : List Nat} {S0 G : Nat} {sc : List Nat} {d : Nat} {Φ : Nat → Option Nat → Prop} {t : M}
    (h : Inv root S0 G sc d Φ t) {env : Env} {ctx : Ctx} (hv : Vis Φ env ctx) (x : Nat) {v : Val}
    (hf : ∀ l lvl, Φ l lvl → env.lookup x = some l → ctx.lookup x = some lvl → Fine root S0 sc d t lvl v) :
    Inv root S0 G sc d Φ (setVar env t x v) ∧ Ext Φ t (setVar env t x v) := by
  unfold setVar
  rcases vis_lookup hv x with ⟨h1, _⟩ | ⟨l, lvl, h1, h2, h3⟩
  · rw [h1]
    exact ⟨h, Ext.refl Φ t⟩
  · rw [h1]
    exact ⟨h.set h3 (hf l lvl h3 h1 h2), ext_set t h3 v⟩

/-- With one variable more. -/
def add (Φ : Nat → Option Nat → Prop) (l : Nat) (lvl : Option Nat) : Nat → Option Nat → Prop :=
  fun l' lvl' => Φ l' lvl' ∨ (l' = l ∧ lvl' = lvl)

theorem newVar_ok {root : List Nat} {S0 G : Nat} {sc : List Nat} {d : Nat} {Φ : Nat → Option Nat → Prop} {t : M}
    (h : Inv root S0 G sc d Φ t) {env : Env} {ctx : Ctx} (hv : Vis Φ env ctx) (x : Nat) {v : Val}
    (hf : Fine root S0 sc d t (some d) v) :
    Inv root S0 G sc d (add Φ t.locs (some d)) (newVar env t x v).2 ∧
      Vis (add Φ t.locs (some d)) (newVar env t x v).1 ((x, some d) :: ctx) ∧ Ext Φ t (newVar env t x v).2 := by
  refine ⟨⟨?_, ?_, ?_, ?_, h.len, h.rt, h.ar, h.fr, h.s0⟩, ?_, ?_⟩
  · intro l lvl hl
    rcases hl with hl | ⟨rfl, rfl⟩
    · have := h.fine l lvl hl
      refine ⟨Nat.lt_succ_of_lt this.1, ?_⟩
      show Fine root S0 sc d t lvl (if l = t.locs then v else t.store l)
      rw [if_neg (by omega)]
      exact this.2
    · refine ⟨Nat.lt_succ_self _, ?_⟩
      show Fine root S0 sc d t (some d) (if t.locs = t.locs then v else t.store t.locs)
      rw [if_pos rfl]
      exact hf
  · intro l j hl
    rcases hl with hl | ⟨_, e⟩
    · exact h.lvl l j hl
    · cases e
      exact Nat.le_refl _
  · intro l a b ha hb
    rcases ha with ha | ⟨ha, rfl⟩ <;> rcases hb with hb | ⟨hb, rfl⟩
    · exact h.fn l a b ha hb
    · have := (h.fine l a ha).1
      omega
    · have := (h.fine l b hb).1
      omega
    · rfl
  · exact fun l hl => .inl (h.glob l hl)
  · exact List.Forall₂.cons ⟨rfl, .inr ⟨rfl, rfl⟩⟩ (hv.mono fun l lvl hl => .inl hl)
  · refine ⟨Nat.le_succ _, Nat.le_refl _, Nat.le_refl _, fun _ _ h => h, fun l hl _ => ?_⟩
    exact if_neg (by omega)

/-! ### Scopes -/

theorem Inv.enter {root : List Nat} {S0 G : Nat} {sc : List Nat} {d : Nat} {Φ : Nat → Option Nat → Prop} {t : M}
    (h : Inv root S0 G sc d Φ t) : Inv root S0 G (t.arenas :: sc) (d + 1) Φ { t with arenas := t.arenas + 1 } where
  fine l lvl hl := by
    obtain ⟨h1, h2⟩ := h.fine l lvl hl
    refine ⟨h1, fun b hb => ?_⟩
    obtain ⟨h3, h4, h5⟩ := h2 b hb
    cases lvl with
    | none => exact ⟨h3, h4, h5⟩
    | some j =>
      refine ⟨?_, h4, h5⟩
      have := h.lvl l j hl
      have e : d + 1 - j = (d - j) + 1 := by omega
      simpa [region, e] using h3
  lvl l j hl := Nat.le_succ_of_le (h.lvl l j hl)
  fn := h.fn
  glob := h.glob
  len := by simpa using h.len
  rt := by simpa using h.rt
  ar a ha := by
    rcases List.mem_cons.1 ha with rfl | ha
    · exact Nat.lt_succ_self _
    · exact Nat.lt_succ_of_lt (h.ar a ha)
  fr := h.fr
  s0 := h.s0

theorem Inv.exit {root : List Nat} {S0 G : Nat} {sc : List Nat} {d a : Nat} {Φ Φ' : Nat → Option Nat → Prop} {t t' : M}
    (h : Inv root S0 G sc d Φ t) (h' : Inv root S0 G (a :: sc) (d + 1) Φ' t') (hs : ∀ l lvl, Φ l lvl → Φ' l lvl) :
    Inv root S0 G sc d Φ t' where
  fine l lvl hl := by
    obtain ⟨h1, h2⟩ := h'.fine l lvl (hs l lvl hl)
    refine ⟨h1, fun b hb => ?_⟩
    obtain ⟨h3, h4, h5⟩ := h2 b hb
    cases lvl with
    | none => exact ⟨h3, h4, h5⟩
    | some j =>
      refine ⟨?_, h4, h5⟩
      have := h.lvl l j hl
      have e : d + 1 - j = (d - j) + 1 := by omega
      simpa [region, e] using h3
  lvl := h.lvl
  fn := h.fn
  glob := h.glob
  len := h.len
  rt := h.rt
  ar a ha := h'.ar a (List.mem_cons_of_mem _ ha)
  fr := h'.fr
  s0 := h'.s0

/-! ### Statements -/

/-- The value returned can be used by the caller, whose arenas are `csc`. -/
def RetOk (F : Fn) (csc : List Nat) (o : Out) (t : M) : Prop :=
  match o with
  | .next => True
  | .ret v => Good csc t v ∧ (F.valued = false → v = [])

structure Done (root : List Nat) (S0 G : Nat) (F : Fn) (csc sc : List Nat) (d : Nat) (Φ : Nat → Option Nat → Prop) (ctx' : Ctx)
    (t : M) (o : Out) (env' : Env) (t' : M) : Prop where
  ex : ∃ Φ', (∀ l lvl, Φ l lvl → Φ' l lvl) ∧ (∀ l lvl, Φ' l lvl → Φ l lvl ∨ t.locs ≤ l) ∧
    Inv root S0 G sc d Φ' t' ∧ (o = .next → Vis Φ' env' ctx')
  ext : Ext Φ t t'
  ret : RetOk F csc o t'

/-- A statement uses nothing freed. -/
def Post (root : List Nat) (S0 G : Nat) (F : Fn) (csc sc : List Nat) (d : Nat) (Φ : Nat → Option Nat → Prop) (ctx' : Ctx)
    (t : M) : R (Out × Env × M) → Prop
  | .more => True
  | .bad => False
  | .ok (o, env', t') => Done root S0 G F csc sc d Φ ctx' t o env' t'

/-- The C variables a call may change. -/
def passed (G : Nat) (ls : List Nat) : Nat → Option Nat → Prop := fun l lvl => (l ∈ ls ∧ lvl = some 0) ∨ (l < G ∧ lvl = none)

def CallPost (root : List Nat) (S0 G : Nat) (csc ls : List Nat) (t : M) : R (Val × M) → Prop
  | .more => True
  | .bad => False
  | .ok (v, t') => Inv root S0 G csc 0 (passed G ls) t' ∧ Ext (passed G ls) t t' ∧ Good csc t' v

def CallOk (P : Prog) (root : List Nat) (S0 : Nat) (k : Call) : Prop :=
  ∀ f vs ls csc t, Inv root S0 P.globals.length csc 0 (passed P.globals.length ls) t → vs.length = (P.fn f).params.length →
    ls.length = (P.fn f).rparams.length → (∀ v ∈ vs, Good csc t v) →
      CallPost root S0 P.globals.length csc ls t (k f vs ls csc t)

theorem keep {root : List Nat} {S0 G : Nat} {F : Fn} {csc sc : List Nat} {d : Nat} {Φ : Nat → Option Nat → Prop} {ctx : Ctx}
    {t t' : M} {env : Env} (h : Inv root S0 G sc d Φ t') (hv : Vis Φ env ctx) (hx : Ext Φ t t') :
    Done root S0 G F csc sc d Φ ctx t .next env t' :=
  ⟨⟨Φ, fun _ _ h => h, fun _ _ h => .inl h, h, fun _ => hv⟩, hx, trivial⟩

theorem fits_of {ctx : Ctx} {x d : Nat} {de : Dest} (h : fitsVar ctx x d de = true) {lvl : Option Nat}
    (hl : ctx.lookup x = some lvl) : fits lvl d de = true := by
  rw [fitsVar, hl] at h
  exact h

theorem set_flatten {v : Val} {i : Nat} {w : List Block} {b : Block} (h : b ∈ (v.set i w).flatten) : b ∈ v.flatten ∨ b ∈ w := by
  obtain ⟨l, hl, hb⟩ := List.mem_flatten.1 h
  rcases List.mem_or_eq_of_mem_set hl with hl | rfl
  · exact .inl (List.mem_flatten.2 ⟨l, hl, hb⟩)
  · exact .inr hb

theorem valOf_grow (env : Env) (t : M) (m : Nat) (x : Nat) : valOf env (grow t m) x = valOf env t x := rfl

theorem valOf_some {env : Env} {t : M} {x l : Nat} (h : env.lookup x = some l) : valOf env t x = t.store l := by
  rw [valOf, h]

theorem ret_mono {F : Fn} {csc : List Nat} {o : Out} {t : M} (h : RetOk F csc o t) (m : Nat) : RetOk F csc o (grow t m) := by
  cases o with
  | next => trivial
  | ret v => exact ⟨h.1.grow m, h.2⟩

/-- A round. -/
def Round (root : List Nat) (S0 G : Nat) (F : Fn) (csc sc : List Nat) (d : Nat) (Φ : Nat → Option Nat → Prop) (t : M) :
    R (Out × M) → Prop
  | .more => True
  | .bad => False
  | .ok (o, t') => Inv root S0 G sc d Φ t' ∧ Ext Φ t t' ∧ RetOk F csc o t'

theorem rounds_ok {root : List Nat} {S0 G : Nat} {F : Fn} {csc sc : List Nat} {d : Nat} {Φ : Nat → Option Nat → Prop}
    {one : M → R (Out × M)}
    (hone : ∀ t, Inv root S0 G sc d Φ t → Round root S0 G F csc sc d Φ t (one t)) :
    ∀ (n : Nat) (t : M), Inv root S0 G sc d Φ t → Round root S0 G F csc sc d Φ t (rounds one n t)
  | 0, _, _ => trivial
  | n + 1, t, h => by
    obtain ⟨cs, hc⟩ := flip_eq t
    have h0 : Inv root S0 G sc d Φ (flip t).2 := hc ▸ h.flip cs
    have x0 : Ext Φ t (flip t).2 := hc ▸ ext_coins Φ t cs
    rw [rounds]
    cases e : (Escape.flip t).1 with
    | false =>
      simp only [Bool.false_eq_true, if_false]
      exact ⟨h0, x0, trivial⟩
    | true =>
      simp only [if_true]
      have := hone _ h0
      match hr : one (Escape.flip t).2 with
      | .more => trivial
      | .bad => rw [hr] at this; exact this
      | .ok (.next, t1) =>
        rw [hr] at this
        obtain ⟨i1, x1, _⟩ := this
        have h2 := rounds_ok hone n t1 i1
        simp only [R.bind]
        match hq : rounds one n t1 with
        | .more => trivial
        | .bad => rw [hq] at h2; exact h2
        | .ok (o, t2) =>
          rw [hq] at h2
          exact ⟨h2.1, (x0.trans x1 fun _ _ h => .inl h).trans h2.2.1 fun _ _ h => .inl h, h2.2.2⟩
      | .ok (.ret v, t1) =>
        rw [hr] at this
        exact ⟨this.1, x0.trans this.2.1 fun _ _ h => .inl h, this.2.2⟩

/-- A statement in a scope of its own. -/
theorem scope_ok {root : List Nat} {S0 G : Nat} {F : Fn} {csc sc : List Nat} {d : Nat} {Φ : Nat → Option Nat → Prop} {ctx' : Ctx}
    {t : M} (h : Inv root S0 G sc d Φ t) {r : R (Out × Env × M)}
    (hr : Post root S0 G F csc (t.arenas :: sc) (d + 1) Φ ctx' { t with arenas := t.arenas + 1 } r) :
    Round root S0 G F csc sc d Φ t (r.bind fun p => .ok (p.1, p.2.2)) := by
  match r, hr with
  | .more, _ => trivial
  | .ok (o, env', t'), hr =>
    obtain ⟨⟨Φ', h1, _, h3, _⟩, hx, hret⟩ := hr
    refine ⟨h.exit h3 h1, ?_, hret⟩
    exact ⟨hx.locs, Nat.le_trans (Nat.le_succ _) hx.arenas, hx.blocks, hx.freed, hx.store⟩

theorem round_done {root : List Nat} {S0 G : Nat} {F : Fn} {csc sc : List Nat} {d : Nat} {Φ : Nat → Option Nat → Prop} {ctx : Ctx}
    {t t0 : M} {env : Env} (hv : Vis Φ env ctx) (hx : Ext Φ t0 t) {r : R (Out × M)} (hr : Round root S0 G F csc sc d Φ t r) :
    Post root S0 G F csc sc d Φ ctx t0 (r.bind fun p => .ok (p.1, env, p.2)) := by
  match r, hr with
  | .more, _ => trivial
  | .ok (o, t'), hr =>
    exact ⟨⟨Φ, fun _ _ h => h, fun _ _ h => .inl h, hr.1, fun _ => hv⟩, hx.trans hr.2.1 fun _ _ h => .inl h, hr.2.2⟩

theorem lookups {Φ : Nat → Option Nat → Prop} {env : Env} {ctx : Ctx} (hv : Vis Φ env ctx) {d : Nat} :
    ∀ (refs : List Nat), (refs.all fun y => ctx.lookup y == some (some d)) = true →
      (refs.filterMap fun y => env.lookup y).length = refs.length ∧
        ∀ l ∈ refs.filterMap fun y => env.lookup y, Φ l (some d)
  | [], _ => by simp
  | y :: ys, h => by
    rw [List.all_cons, Bool.and_eq_true] at h
    have ih := lookups hv ys h.2
    have hy : ctx.lookup y = some (some d) := by simpa using h.1
    rcases vis_lookup hv y with ⟨_, h2⟩ | ⟨l, lvl, h1, h2, h3⟩
    · rw [hy] at h2
      cases h2
    · rw [hy] at h2
      cases h2
      rw [List.filterMap_cons, h1]
      refine ⟨by simp [ih.1], fun l' hl' => ?_⟩
      rcases List.mem_cons.1 hl' with rfl | hl'
      · exact h3
      · exact ih.2 l' hl'

theorem call_inv {root : List Nat} {S0 G : Nat} {sc : List Nat} {d : Nat} {Φ : Nat → Option Nat → Prop} {t : M}
    (h : Inv root S0 G sc d Φ t) {ls : List Nat} (hl : ∀ l ∈ ls, Φ l (some d)) : Inv root S0 G sc 0 (passed G ls) t where
  fine l lvl hp := by
    rcases hp with ⟨hp, rfl⟩ | ⟨hp, rfl⟩
    · have := h.fine l _ (hl l hp)
      refine ⟨this.1, fun b hb => ?_⟩
      have := this.2 b hb
      simpa [region, bound] using this
    · exact h.fine l none (h.glob l hp)
  lvl l j hp := by
    rcases hp with ⟨_, e⟩ | ⟨_, e⟩
    · cases e
      exact Nat.le_refl _
    · cases e
  fn l a b ha hb := by
    rcases ha with ⟨ha, rfl⟩ | ⟨ha, rfl⟩ <;> rcases hb with ⟨hb, rfl⟩ | ⟨hb, rfl⟩
    · rfl
    · cases h.fn l _ _ (hl l ha) (h.glob l hb)
    · cases h.fn l _ _ (hl l hb) (h.glob l ha)
    · rfl
  glob l hl := .inr ⟨hl, rfl⟩
  len := Nat.lt_of_le_of_lt (Nat.zero_le _) h.len
  rt := h.rt.trans (List.drop_suffix d sc)
  ar := h.ar
  fr := h.fr
  s0 := h.s0

theorem call_back {root : List Nat} {S0 G : Nat} {sc : List Nat} {d : Nat} {Φ : Nat → Option Nat → Prop} {t t' : M}
    (h : Inv root S0 G sc d Φ t) {ls : List Nat} (hl : ∀ l ∈ ls, Φ l (some d)) (h' : Inv root S0 G sc 0 (passed G ls) t')
    (hx : Ext (passed G ls) t t') : Inv root S0 G sc d Φ t' ∧ Ext Φ t t' := by
  refine ⟨⟨?_, h.lvl, h.fn, h.glob, h.len, h.rt, h'.ar, h'.fr, h'.s0⟩, hx.locs, hx.arenas, hx.blocks, hx.freed, ?_⟩
  · intro l lvl hp
    by_cases h1 : l ∈ ls
    · have e := h.fn l _ _ hp (hl l h1)
      subst e
      have := h'.fine l (some 0) (.inl ⟨h1, rfl⟩)
      refine ⟨this.1, fun b hb => ?_⟩
      have := this.2 b hb
      simpa [region, bound] using this
    · by_cases h2 : l < G
      · have e := h.fn l _ _ hp (h.glob l h2)
        subst e
        exact h'.fine l none (.inr ⟨h2, rfl⟩)
      · have h3 := h.fine l lvl hp
        have hst := hx.store l h3.1 fun lvl hp => by
          rcases hp with ⟨hp, _⟩ | ⟨hp, _⟩
          · exact h1 hp
          · exact h2 hp
        refine ⟨Nat.lt_of_lt_of_le h3.1 hx.locs, fun b hb => ?_⟩
        rw [hst] at hb
        obtain ⟨a1, a2, a3⟩ := h3.2 b hb
        have hg := h.good h3.2 b hb
        refine ⟨a1, ?_, hx.freed b hg.2.1 a3⟩
        cases lvl with
        | none => exact a2
        | some j => exact Nat.lt_of_lt_of_le a2 hx.blocks
  · intro l hlt hn
    refine hx.store l hlt fun lvl hp => ?_
    rcases hp with ⟨hp, _⟩ | ⟨hp, _⟩
    · exact hn _ (hl l hp)
    · exact hn _ (h.glob l hp)

theorem exec_ok (P : Prog) {root : List Nat} {S0 : Nat} (F : Fn) {k : Call} (hk : CallOk P root S0 k) (n saved : Nat)
    {csc : List Nat} (hsv : saved ∈ csc) :
    ∀ (a : Stmt) (d : Nat) (env : Env) (ctx ctx' : Ctx) (sc : List Nat) (Φ : Nat → Option Nat → Prop) (t : M),
      chk P F a d ctx = some ctx' → Inv root S0 P.globals.length sc d Φ t → Vis Φ env ctx →
      (F.refs = true → sc.drop d = csc) →
        Post root S0 P.globals.length F csc sc d Φ ctx' t (exec F k n ((sc.drop d).headD 0) saved a d env sc t)
  | .skip, d, env, ctx, ctx', sc, Φ, t, hc, h, hv, _ => by
    cases hc
    exact keep h hv (Ext.refl Φ t)
  | .use e, d, env, ctx, ctx', sc, Φ, t, hc, h, hv, _ => by
    cases hc
    obtain ⟨v, m, h1, _⟩ := eval_ok hv e t h
    rw [exec, h1]
    exact keep (h.grow m) hv (ext_grow Φ t m)
  | .seq a b, d, env, ctx, ctx', sc, Φ, t, hc, h, hv, hr => by
    rw [chk] at hc
    obtain ⟨c1, hc1, hc2⟩ := Option.bind_eq_some_iff.1 hc
    have ha := exec_ok P F hk n saved hsv a d env ctx c1 sc Φ t hc1 h hv hr
    rw [exec]
    revert ha
    match exec F k n ((sc.drop d).headD 0) saved a d env sc t with
    | .more => exact fun _ => trivial
    | .bad => exact fun h => h
    | .ok (.ret v, env1, t1) =>
      intro ha
      obtain ⟨⟨Φ', a1, a2, a3, _⟩, ax, ar⟩ := ha
      exact ⟨⟨Φ', a1, a2, a3, fun e => by cases e⟩, ax, ar⟩
    | .ok (.next, env1, t1) =>
      intro ha
      obtain ⟨⟨Φ', a1, a2, a3, a4⟩, ax, _⟩ := ha
      have hb := exec_ok P F hk n saved hsv b d env1 c1 ctx' sc Φ' t1 hc2 a3 (a4 rfl) hr
      show Post _ _ _ _ _ _ _ _ _ _ (exec F k n ((sc.drop d).headD 0) saved b d env1 sc t1)
      revert hb
      match exec F k n ((sc.drop d).headD 0) saved b d env1 sc t1 with
      | .more => exact fun _ => trivial
      | .bad => exact fun h => h
      | .ok (o, env2, t2) =>
        intro hb
        obtain ⟨⟨Φ2, b1, b2, b3, b4⟩, bx, br⟩ := hb
        refine ⟨⟨Φ2, fun l lvl h => b1 l lvl (a1 l lvl h), fun l lvl h => ?_, b3, b4⟩, ax.trans bx a2, br⟩
        rcases b2 l lvl h with h | h
        · exact a2 l lvl h
        · exact .inr (Nat.le_trans ax.locs h)
  | .decl x ty e, d, env, ctx, ctx', sc, Φ, t, hc, h, hv, _ => by
    cases hc
    obtain ⟨v, m, h1, g1⟩ := eval_ok hv e t h
    rw [exec, h1]
    simp only [R.bind]
    have key : ∀ w m', Fine root S0 sc d (grow (grow t m) m') (some d) w →
        Done root S0 P.globals.length F csc sc d Φ ((x, some d) :: ctx) t .next
          (newVar env (grow (grow t m) m') x w).1 (newVar env (grow (grow t m) m') x w).2 := by
      intro w m' hf
      obtain ⟨n1, n2, n3⟩ := newVar_ok ((h.grow m).grow m') hv x hf
      refine ⟨⟨_, fun l lvl hl => .inl hl, fun l lvl hl => ?_, n1, fun _ => n2⟩, ?_, trivial⟩
      · rcases hl with hl | ⟨rfl, _⟩
        · exact .inl hl
        · exact .inr (Nat.le_refl _)
      · exact ((ext_grow Φ t m).trans (ext_grow Φ _ m') fun _ _ h => .inl h).trans n3 fun _ _ h => .inl h
    cases hd : declDest ty e with
    | drop => exact key [] 0 fun b hb => by simp at hb
    | share => exact key v 0 (good_fine g1)
    | here => exact key _ v.flatten.length (good_fine (copy_good (h.grow m) h.head_mem))
    | outer =>
      exfalso
      unfold declDest at hd
      split at hd <;> cases hd
  | .assign x ty e, d, env, ctx, ctx', sc, Φ, t, hc, h, hv, _ => by
    rw [chk] at hc
    split at hc
    case isFalse => cases hc
    case isTrue hfit =>
    cases hc
    obtain ⟨v, m, h1, g1⟩ := eval_ok hv e t h
    obtain ⟨w, m', h2, hf⟩ := place_ok (h.grow m) (labelDest ty (d != 0)) g1
    rw [exec, h1]
    simp only [R.bind]
    rw [h2]
    obtain ⟨s1, s2⟩ := setVar_ok ((h.grow m).grow m') hv x (v := w) fun l lvl hl _ hcx => hf l lvl hl (fits_of hfit hcx)
    exact keep s1 hv (((ext_grow Φ t m).trans (ext_grow Φ _ m') fun _ _ h => .inl h).trans s2 fun _ _ h => .inl h)
  | .setElem x i ty e, d, env, ctx, ctx', sc, Φ, t, hc, h, hv, _ => by
    rw [chk] at hc
    split at hc
    case isFalse => cases hc
    case isTrue hfit =>
    cases hc
    obtain ⟨v, m, h1, g1⟩ := eval_ok hv e t h
    obtain ⟨w, m', h2, hf⟩ := place_ok (h.grow m) (elemDest ty) g1
    rw [exec, h1]
    simp only [R.bind]
    have hown := (h.grow m).var hv x
    rw [if_pos (good_all fun b hb => hown b (mem_head hb)), h2]
    obtain ⟨s1, s2⟩ := setVar_ok ((h.grow m).grow m') hv x (v := (valOf env (grow t m) x).set (i + 1) w.flatten)
      fun l lvl hl hx hcx b hb => by
        rcases set_flatten hb with hb | hb
        · rw [valOf_some hx] at hb
          exact (((h.grow m).fine l lvl hl).2.grow m') b hb
        · exact hf l lvl hl (fits_of hfit hcx) b hb
    exact keep s1 hv (((ext_grow Φ t m).trans (ext_grow Φ _ m') fun _ _ h => .inl h).trans s2 fun _ _ h => .inl h)
  | .setField x i ty e, d, env, ctx, ctx', sc, Φ, t, hc, h, hv, _ => by
    rw [chk] at hc
    split at hc
    case isFalse => cases hc
    case isTrue hfit =>
    cases hc
    obtain ⟨v, m, h1, g1⟩ := eval_ok hv e t h
    obtain ⟨w, m', h2, hf⟩ := place_ok (h.grow m) (fieldDest ty (d != 0)) g1
    rw [exec, h1]
    simp only [R.bind]
    rw [h2]
    obtain ⟨s1, s2⟩ := setVar_ok ((h.grow m).grow m') hv x (v := (valOf env (grow t m) x).set (i + 1) w.flatten)
      fun l lvl hl hx hcx b hb => by
        rcases set_flatten hb with hb | hb
        · rw [valOf_some hx] at hb
          exact (((h.grow m).fine l lvl hl).2.grow m') b hb
        · exact hf l lvl hl (fits_of hfit hcx) b hb
    exact keep s1 hv (((ext_grow Φ t m).trans (ext_grow Φ _ m') fun _ _ h => .inl h).trans s2 fun _ _ h => .inl h)
  | .push x ty e, d, env, ctx, ctx', sc, Φ, t, hc, h, hv, _ => by
    rw [chk] at hc
    split at hc
    case isFalse => cases hc
    case isTrue hfit =>
    cases hc
    obtain ⟨v, m, h1, g1⟩ := eval_ok hv e t h
    obtain ⟨w, m', h2, hf⟩ := place_ok (h.grow m) (pushDest ty (d != 0)) g1
    rw [exec, h1]
    simp only [R.bind]
    have hown := (h.grow m).var hv x
    rw [if_pos (good_all fun b hb => hown b (mem_head hb)), h2]
    obtain ⟨cs, hcs⟩ := flip_eq (grow (grow t m) m')
    have hsome : ∀ lvl, ctx.lookup x = some lvl → lvl.isSome = true := fun lvl hcx => by
      have := fits_of hfit hcx
      exact this
    have hfit' : ∀ l lvl, Φ l lvl → ctx.lookup x = some lvl → fits lvl d (pushDest ty (d != 0)) = true := by
      intro l lvl hl hcx
      have hs := hsome lvl hcx
      cases lvl with
      | none => simp at hs
      | some j =>
        have hj := h.lvl l j hl
        cases ty <;> simp only [pushDest, fits]
        all_goals
          cases hd : (d != 0)
          · have : d = 0 := by simpa using hd
            subst this
            have : j = 0 := by omega
            subst this
            rfl
          · rfl
    have x0 : Ext Φ t (grow (grow t m) m') := (ext_grow Φ t m).trans (ext_grow Φ _ m') fun _ _ h => .inl h
    have parts : ∀ l lvl, Φ l lvl → env.lookup x = some l → ctx.lookup x = some lvl → ∀ b,
        b ∈ ((valOf env (grow t m) x).headD []) ∨ b ∈ ((valOf env (grow t m) x).drop 1).flatten ∨ b ∈ w.flatten →
          b.1 ∈ region root sc d lvl ∧ b.2 < bound S0 (grow (grow t m) m') lvl ∧ isFreed t.freed b = false := by
      intro l lvl hl hx hcx b hb
      have hst : ∀ b ∈ (valOf env (grow t m) x).flatten,
          b.1 ∈ region root sc d lvl ∧ b.2 < bound S0 (grow (grow t m) m') lvl ∧ isFreed t.freed b = false := by
        intro b hb
        rw [valOf_some hx] at hb
        exact (((h.grow m).fine l lvl hl).2.grow m') b hb
      rcases hb with hb | hb | hb
      · exact hst b (mem_head hb)
      · exact hst b (mem_drop_flatten hb)
      · exact hf l lvl hl (hfit' l lvl hl hcx) b hb
    have i0 : Inv root S0 P.globals.length sc d Φ (Escape.flip (grow (grow t m) m')).2 := hcs ▸ ((h.grow m).grow m').flip cs
    have x1 : Ext Φ t (Escape.flip (grow (grow t m) m')).2 := hcs ▸ x0.trans (ext_coins Φ _ cs) fun _ _ h => .inl h
    cases hcoin : (Escape.flip (grow (grow t m) m')).1 with
    | false =>
      simp only [Bool.false_eq_true, if_false]
      obtain ⟨s1, s2⟩ := setVar_ok i0 hv x
        (v := (valOf env (grow t m) x).headD [] :: (valOf env (grow t m) x).drop 1 ++ [w.flatten])
        fun l lvl hl hx hcx b hb => by
          have := parts l lvl hl hx hcx b (by
            simpa only [List.cons_append, List.flatten_cons, List.flatten_append, List.flatten_nil, List.append_nil,
              List.mem_append] using hb)
          rw [hcs]
          exact this
      exact keep s1 hv (x1.trans s2 fun _ _ h => .inl h)
    | true =>
      simp only [if_true]
      obtain ⟨s1, s2⟩ := setVar_ok (i0.grow 1) hv x
        (v := (alloc (if (d != 0) = true then (sc.drop d).headD 0 else sc.headD 0) (Escape.flip (grow (grow t m) m')).2).1 ::
          (valOf env (grow t m) x).drop 1 ++ [w.flatten])
        fun l lvl hl hx hcx b hb => by
          have hb' : b ∈ (alloc (if (d != 0) = true then (sc.drop d).headD 0 else sc.headD 0) (Escape.flip (grow (grow t m) m')).2).1 ∨
              b ∈ ((valOf env (grow t m) x).drop 1).flatten ∨ b ∈ w.flatten := by
            simpa only [List.cons_append, List.flatten_cons, List.flatten_append, List.flatten_nil, List.append_nil,
              List.mem_append] using hb
          rcases hb' with hb | hb
          · simp only [alloc, List.mem_singleton] at hb
            have hs := hsome lvl hcx
            cases lvl with
            | none => simp at hs
            | some j =>
              subst hb
              refine ⟨?_, by simp [bound, grow], freed_fresh i0.fr (Nat.le_refl _)⟩
              have hj := h.lvl l j hl
              cases hd : (d != 0)
              · have : d = 0 := by simpa using hd
                subst this
                simpa [region] using h.head_mem
              · simpa [region] using h.base_mem hl
          · have := parts l lvl hl hx hcx b (.inr hb)
            rw [hcs]
            refine ⟨this.1, ?_, this.2.2⟩
            have h2 := this.2.1
            cases lvl with
            | none => exact h2
            | some j => exact Nat.lt_succ_of_lt h2
      exact keep s1 hv ((x1.trans (ext_grow Φ _ 1) fun _ _ h => .inl h).trans s2 fun _ _ h => .inl h)
  | .call x f args refs, d, env, ctx, ctx', sc, Φ, t, hc, h, hv, _ => by
    rw [chk] at hc
    split at hc
    case isFalse => cases hc
    case isTrue hcond =>
    cases hc
    rw [Bool.and_eq_true, Bool.and_eq_true, beq_iff_eq, beq_iff_eq] at hcond
    obtain ⟨⟨n1, n2⟩, hrefs⟩ := hcond
    obtain ⟨hlen, hls⟩ := lookups hv refs hrefs
    obtain ⟨vs, m, h1, hl1, g1⟩ := evals_ok hv args t h
    rw [exec, h1]
    simp only [R.bind]
    have hcall := hk f vs (refs.filterMap fun y => env.lookup y) sc (grow t m) (call_inv (h.grow m) hls)
      (hl1.trans n1) (hlen.trans n2) g1
    revert hcall
    match k f vs (refs.filterMap fun y => env.lookup y) sc (grow t m) with
    | .more => exact fun _ => trivial
    | .bad => exact fun h => h
    | .ok (v, t1) =>
      intro hcall
      obtain ⟨c1, c2, c3⟩ := hcall
      obtain ⟨b1, b2⟩ := call_back (h.grow m) hls c1 c2
      obtain ⟨v1, v2, v3⟩ := newVar_ok b1 hv x (good_fine c3)
      have x1 : Ext Φ t t1 := (ext_grow Φ t m).trans b2 fun _ _ h => .inl h
      refine ⟨⟨_, fun l lvl hl => .inl hl, fun l lvl hl => ?_, v1, fun _ => v2⟩, x1.trans v3 fun _ _ h => .inl h, trivial⟩
      rcases hl with hl | ⟨rfl, _⟩
      · exact .inl hl
      · exact .inr x1.locs
  | .ret e, d, env, ctx, ctx', sc, Φ, t, hc, h, hv, hr => by
    rw [chk] at hc
    split at hc
    case isTrue => cases hc
    case isFalse hcond =>
    cases hc
    rw [exec]
    have done : ∀ (v : Val) (m : Nat), Good csc (grow t m) v → (F.valued = false → v = []) →
        Done root S0 P.globals.length F csc sc d Φ ctx t (.ret v) env (grow t m) := fun v m hg hz =>
      ⟨⟨Φ, fun _ _ h => h, fun _ _ h => .inl h, h.grow m, fun e => by cases e⟩, ext_grow Φ t m, hg, hz⟩
    cases hval : F.valued with
    | false =>
      simp only [Bool.false_eq_true, if_false]
      exact done [] 0 (fun b hb => by simp at hb) fun _ => rfl
    | true =>
      simp only [if_true]
      obtain ⟨v, m, h1, g1⟩ := eval_ok hv e t h
      rw [h1]
      simp only [R.bind]
      cases hrf : F.refs with
      | true =>
        simp only [if_true]
        have hd : d = 0 := by
          rw [hval, hrf] at hcond
          simpa using hcond
        subst hd
        have hsc := hr hrf
        rw [List.drop_zero] at hsc
        subst hsc
        exact done v m g1 (by rw [hval]; simp)
      | false =>
        simp only [Bool.false_eq_true, if_false]
        have := done (copyVal saved v (grow t m)).1 (m + v.flatten.length) (by
          rw [← grow_grow]
          exact copy_good (h.grow m) hsv) (by rw [hval]; simp)
        rw [← grow_grow] at this
        exact this
  | .ifS a b, d, env, ctx, ctx', sc, Φ, t, hc, h, hv, hr => by
    rw [chk] at hc
    obtain ⟨c1, hc1, hc2⟩ := Option.bind_eq_some_iff.1 hc
    obtain ⟨c2, hc3, hc4⟩ := Option.bind_eq_some_iff.1 hc2
    cases hc4
    obtain ⟨cs, hcs⟩ := flip_eq t
    have h0 : Inv root S0 P.globals.length sc d Φ (Escape.flip t).2 := hcs ▸ h.flip cs
    have x0 : Ext Φ t (Escape.flip t).2 := hcs ▸ ext_coins Φ t cs
    have hr' : F.refs = true → ((Escape.flip t).2.arenas :: sc).drop (d + 1) = csc := fun e => by simpa using hr e
    have ha := exec_ok P F hk n saved hsv a (d + 1) env ctx c1 ((Escape.flip t).2.arenas :: sc) Φ _ hc1 h0.enter hv hr'
    have hb := exec_ok P F hk n saved hsv b (d + 1) env ctx c2 ((Escape.flip t).2.arenas :: sc) Φ _ hc3 h0.enter hv hr'
    rw [List.drop_succ_cons] at ha hb
    rw [exec]
    have assoc : ∀ r : R (Out × Env × M), (r.bind fun p => .ok (p.1, env, p.2.2))
        = ((r.bind fun p => .ok (p.1, p.2.2)).bind fun p => .ok (p.1, env, p.2)) := by
      intro r
      cases r <;> rfl
    cases hcoin : (Escape.flip t).1 with
    | true =>
      simp only [if_true]
      rw [assoc]
      exact round_done hv x0 (scope_ok h0 ha)
    | false =>
      simp only [Bool.false_eq_true, if_false]
      rw [assoc]
      exact round_done hv x0 (scope_ok h0 hb)
  | .loop a, d, env, ctx, ctx', sc, Φ, t, hc, h, hv, hr => by
    rw [chk] at hc
    obtain ⟨c1, hc1, hc2⟩ := Option.bind_eq_some_iff.1 hc
    cases hc2
    rw [exec]
    refine round_done hv (Ext.refl Φ t) (rounds_ok (fun t1 h1 => ?_) n t h)
    have hr' : F.refs = true → (t1.arenas :: sc).drop (d + 1) = csc := fun e => by simpa using hr e
    have ha := exec_ok P F hk n saved hsv a (d + 1) env ctx c1 (t1.arenas :: sc) Φ _ hc1 h1.enter hv hr'
    rw [List.drop_succ_cons] at ha
    exact scope_ok h1 ha

/-! ### Calls -/

theorem bind_ok {root : List Nat} {S0 G : Nat} {sc : List Nat} :
    ∀ (xs : List Nat) (vs : List Val) (env : Env) (ctx : Ctx) (Φ : Nat → Option Nat → Prop) (t : M), xs.length = vs.length →
      Inv root S0 G sc 0 Φ t → Vis Φ env ctx → (∀ v ∈ vs, Good sc t v) →
      ∃ Φ', (∀ l lvl, Φ l lvl → Φ' l lvl) ∧ (∀ l lvl, Φ' l lvl → Φ l lvl ∨ t.locs ≤ l) ∧
        Inv root S0 G sc 0 Φ' (bindVals xs vs env t).2 ∧
        Vis Φ' (bindVals xs vs env t).1 (xs.reverse.map (fun x => (x, some 0)) ++ ctx) ∧ Ext Φ t (bindVals xs vs env t).2 ∧
        (bindVals xs vs env t).2.blocks = t.blocks
  | [], [], env, ctx, Φ, t, _, h, hv, _ => ⟨Φ, fun _ _ h => h, fun _ _ h => .inl h, h, hv, Ext.refl Φ t, rfl⟩
  | x :: xs, v :: vs, env, ctx, Φ, t, hl, h, hv, hg => by
    obtain ⟨n1, n2, n3⟩ := newVar_ok h hv x (good_fine (hg v (by simp)))
    obtain ⟨Φ', a1, a2, a3, a4, a5, a6⟩ := bind_ok xs vs (newVar env t x v).1 ((x, some 0) :: ctx) _ (newVar env t x v).2
      (by simpa using hl) n1 n2 fun w hw => hg w (by simp [hw])
    refine ⟨Φ', fun l lvl hl => a1 l lvl (.inl hl), fun l lvl hl => ?_, a3, ?_, n3.trans a5 ?_, a6⟩
    · rcases a2 l lvl hl with (hl | ⟨rfl, _⟩) | hl
      · exact .inl hl
      · exact .inr (Nat.le_refl _)
      · exact .inr (Nat.le_trans n3.locs hl)
    · simpa [bindVals] using a4
    · intro l lvl hl
      rcases hl with hl | ⟨rfl, _⟩
      · exact .inl hl
      · exact .inr (Nat.le_refl _)

theorem vis_refs {G : Nat} {all : List Nat} : ∀ (xs ls : List Nat), ls.length = xs.length → (∀ l ∈ ls, l ∈ all) →
    Vis (passed G all) (xs.zip ls) (xs.map fun x => (x, some 0))
  | [], [], _, _ => .nil
  | x :: xs, l :: ls, h, hs =>
    .cons ⟨rfl, .inl ⟨hs l (by simp), rfl⟩⟩ (vis_refs xs ls (by simpa using h) fun k hk => hs k (by simp [hk]))

theorem vis_globals {G : Nat} {all : List Nat} : ∀ (gs : List Nat) (i : Nat), i + gs.length ≤ G →
    Vis (passed G all) (gs.zipIdx i) (gs.map fun x => (x, none))
  | [], _, _ => .nil
  | x :: gs, i, h => by
    rw [List.length_cons] at h
    rw [List.zipIdx_cons]
    exact .cons ⟨rfl, .inr ⟨by show i < G; omega, rfl⟩⟩ (vis_globals gs (i + 1) (by omega))

theorem Vis.append {Φ : Nat → Option Nat → Prop} {e1 e2 : Env} {c1 c2 : Ctx} (h1 : Vis Φ e1 c1) (h2 : Vis Φ e2 c2) :
    Vis Φ (e1 ++ e2) (c1 ++ c2) := by
  induction h1 with
  | nil => exact h2
  | cons h _ ih => exact .cons h ih

/-- With an arena more. -/
theorem Inv.private {root : List Nat} {S0 G : Nat} {sc : List Nat} {Φ : Nat → Option Nat → Prop} {t : M}
    (h : Inv root S0 G sc 0 Φ t) : Inv root S0 G (t.arenas :: sc) 0 Φ { t with arenas := t.arenas + 1 } where
  fine l lvl hl := by
    obtain ⟨h1, h2⟩ := h.fine l lvl hl
    refine ⟨h1, fun b hb => ?_⟩
    obtain ⟨h3, h4, h5⟩ := h2 b hb
    cases lvl with
    | none => exact ⟨h3, h4, h5⟩
    | some j =>
      refine ⟨?_, h4, h5⟩
      simp only [region, Nat.zero_sub, List.drop_zero] at h3 ⊢
      exact List.mem_cons_of_mem _ h3
  lvl := h.lvl
  fn := h.fn
  glob := h.glob
  len := by simp
  rt := h.rt.trans (by simp)
  ar a ha := by
    rcases List.mem_cons.1 ha with rfl | ha
    · exact Nat.lt_succ_self _
    · exact Nat.lt_succ_of_lt (h.ar a ha)
  fr := h.fr
  s0 := h.s0

/-- Back from a call without `&` arguments, in any scope. -/
theorem back_globals {root : List Nat} {S0 G : Nat} {csc sc' : List Nat} {Φ' : Nat → Option Nat → Prop} {t t' : M}
    (h : Inv root S0 G csc 0 (passed G []) t) (h' : Inv root S0 G sc' 0 Φ' t') (hs : ∀ l lvl, passed G [] l lvl → Φ' l lvl)
    (har : ∀ a ∈ csc, a < t'.arenas) (fs : List (Nat × Nat × Nat)) (hfs : ∀ f ∈ fs, f.2.2 ≤ t'.blocks)
    (hf0 : ∀ b : Block, b.2 < S0 → isFreed t'.freed b = false → isFreed fs b = false) :
    Inv root S0 G csc 0 (passed G []) { t' with freed := fs } where
  fine l lvl hl := by
    have h1 := h'.fine l lvl (hs l lvl hl)
    refine ⟨h1.1, fun b hb => ?_⟩
    rcases hl with ⟨hl, _⟩ | ⟨_, rfl⟩
    · simp at hl
    · obtain ⟨a1, a2, a3⟩ := h1.2 b hb
      exact ⟨a1, a2, hf0 b a2 a3⟩
  lvl := h.lvl
  fn := h.fn
  glob := h.glob
  len := h.len
  rt := h.rt
  ar := har
  fr := hfs
  s0 := h'.s0

theorem call_ok (P : Prog) {root : List Nat} {S0 : Nat} {k : Call} (hk : CallOk P root S0 k) (hP : ∀ f, P.ok f = true)
    (n : Nat) : CallOk P root S0 (callM P k n) := by
  intro f vs ls csc t h hn1 hn2 hg
  obtain ⟨ctx', hc⟩ := Option.isSome_iff_exists.1 (hP f)
  have hvis : Vis (passed P.globals.length ls) ((P.fn f).rparams.zip ls ++ globalEnv P)
      ((P.fn f).rparams.map (fun x => (x, some 0)) ++ P.globals.map fun x => (x, none)) :=
    (vis_refs _ _ hn2 fun _ h => h).append (vis_globals _ 0 (by omega))
  have hctx : startCtx P (P.fn f) = (P.fn f).params.reverse.map (fun x => (x, some 0)) ++
      ((P.fn f).rparams.map (fun x => (x, some 0)) ++ P.globals.map fun x => (x, none)) := by
    simp [startCtx, List.append_assoc]
  have hsv : csc.headD 0 ∈ csc := h.head_mem
  /- The body, in whatever scope it runs. -/
  have body : ∀ (sc' : List Nat) (t' : M), Inv root S0 P.globals.length sc' 0 (passed P.globals.length ls) t' →
      (∀ v ∈ vs, Good sc' t' v) → ((P.fn f).refs = true → sc' = csc) →
      ∃ Φ, (∀ l lvl, passed P.globals.length ls l lvl → Φ l lvl) ∧
        (∀ l lvl, Φ l lvl → passed P.globals.length ls l lvl ∨ t'.locs ≤ l) ∧
        Ext (passed P.globals.length ls) t' (bindVals (P.fn f).params vs ((P.fn f).rparams.zip ls ++ globalEnv P) t').2 ∧
        Post root S0 P.globals.length (P.fn f) csc sc' 0 Φ ctx'
          (bindVals (P.fn f).params vs ((P.fn f).rparams.zip ls ++ globalEnv P) t').2
          (exec (P.fn f) k n (sc'.headD 0) (csc.headD 0) (P.fn f).body 0
            (bindVals (P.fn f).params vs ((P.fn f).rparams.zip ls ++ globalEnv P) t').1 sc'
            (bindVals (P.fn f).params vs ((P.fn f).rparams.zip ls ++ globalEnv P) t').2) := by
    intro sc' t' hi hgs hrf
    obtain ⟨Φ, a1, a2, a3, a4, a5, _⟩ := bind_ok (P.fn f).params vs _ _ _ t' hn1.symm hi hvis hgs
    rw [← hctx] at a4
    have := exec_ok P (P.fn f) hk n (csc.headD 0) hsv (P.fn f).body 0 _ _ _ sc' Φ _ hc a3 a4 fun e => by simpa using hrf e
    rw [List.drop_zero] at this
    exact ⟨Φ, a1, a2, a5, this⟩
  have norefs : (P.fn f).refs = false → ls = [] := by
    intro e
    have : (P.fn f).rparams = [] := by simpa [Fn.refs] using e
    rw [this] at hn2
    exact List.length_eq_zero_iff.1 (by simpa using hn2)
  unfold callM
  cases hval : (P.fn f).valued with
  | true =>
    cases hrf : (P.fn f).refs with
    | true =>
      simp only [hval, hrf, Bool.not_true, Bool.and_false, Bool.false_eq_true, if_false]
      obtain ⟨Φ, a1, a2, a5, hpost⟩ := body csc t h hg fun _ => rfl
      revert hpost
      match exec (P.fn f) k n (csc.headD 0) (csc.headD 0) (P.fn f).body 0 _ csc _ with
      | .more => exact fun _ => trivial
      | .bad => exact fun h => h
      | .ok (o, env1, t1) =>
        intro hpost
        obtain ⟨⟨Φ', b1, b2, b3, _⟩, bx, br⟩ := hpost
        refine ⟨?_, a5.trans bx a2, ?_⟩
        · exact ⟨fun l lvl hl => b3.fine l lvl (b1 l lvl (a1 l lvl hl)), h.lvl, h.fn, h.glob, h.len, h.rt, b3.ar, b3.fr, b3.s0⟩
        · cases o with
          | next => exact fun b hb => by simp [outVal] at hb
          | ret v => exact br.1
    | false =>
      have hls := norefs hrf
      subst hls
      simp only [hval, hrf, Bool.not_false, Bool.and_self, if_true, Bool.not_true, Bool.false_and, Bool.false_eq_true, if_false]
      obtain ⟨Φ, a1, a2, a5, hpost⟩ := body (t.arenas :: csc) { t with arenas := t.arenas + 1 } h.private
        (fun v hv b hb => ⟨List.mem_cons_of_mem _ (hg v hv b hb).1, (hg v hv b hb).2⟩) (by rw [hrf]; simp)
      revert hpost
      match exec (P.fn f) k n ((t.arenas :: csc).headD 0) (csc.headD 0) (P.fn f).body 0 _ (t.arenas :: csc) _ with
      | .more => exact fun _ => trivial
      | .bad => exact fun h => h
      | .ok (o, env1, t1) =>
        intro hpost
        obtain ⟨⟨Φ', b1, b2, b3, _⟩, bx, br⟩ := hpost
        have xx := a5.trans bx a2
        refine ⟨?_, ⟨xx.locs, Nat.le_trans (Nat.le_succ _) xx.arenas, xx.blocks, xx.freed, xx.store⟩, ?_⟩
        · exact back_globals h b3 (fun l lvl hl => b1 l lvl (a1 l lvl hl))
            (fun a ha => b3.ar a (List.mem_cons_of_mem _ ha)) t1.freed b3.fr fun _ _ h => h
        · cases o with
          | next => exact fun b hb => by simp [outVal] at hb
          | ret v => exact br.1
  | false =>
    cases hrf : (P.fn f).refs with
    | true =>
      simp only [hval, hrf, Bool.not_true, Bool.and_false, Bool.false_eq_true, if_false]
      obtain ⟨Φ, a1, a2, a5, hpost⟩ := body csc t h hg fun _ => rfl
      revert hpost
      match exec (P.fn f) k n (csc.headD 0) (csc.headD 0) (P.fn f).body 0 _ csc _ with
      | .more => exact fun _ => trivial
      | .bad => exact fun h => h
      | .ok (o, env1, t1) =>
        intro hpost
        obtain ⟨⟨Φ', b1, b2, b3, _⟩, bx, br⟩ := hpost
        refine ⟨?_, a5.trans bx a2, ?_⟩
        · exact ⟨fun l lvl hl => b3.fine l lvl (b1 l lvl (a1 l lvl hl)), h.lvl, h.fn, h.glob, h.len, h.rt, b3.ar, b3.fr, b3.s0⟩
        · cases o with
          | next => exact fun b hb => by simp [outVal] at hb
          | ret v => exact br.1
    | false =>
      have hls := norefs hrf
      subst hls
      simp only [hval, hrf, Bool.not_false, Bool.and_self, if_true, Bool.false_and, Bool.false_eq_true, if_false]
      obtain ⟨Φ, a1, a2, a5, hpost⟩ := body csc t h hg fun _ => rfl
      revert hpost
      match exec (P.fn f) k n (csc.headD 0) (csc.headD 0) (P.fn f).body 0 _ csc _ with
      | .more => exact fun _ => trivial
      | .bad => exact fun h => h
      | .ok (o, env1, t1) =>
        intro hpost
        obtain ⟨⟨Φ', b1, b2, b3, _⟩, bx, br⟩ := hpost
        have xx := a5.trans bx a2
        have hnew : ∀ b : Block, b.2 < t.blocks → isFreed t1.freed b = false →
            isFreed ((csc.headD 0, t.blocks, t1.blocks) :: t1.freed) b = false := by
          intro b hb hf
          rw [isFreed, List.any_cons, Bool.or_eq_false_iff]
          refine ⟨?_, hf⟩
          have : Nat.ble t.blocks b.2 = false := by
            rw [← Bool.not_eq_true, Nat.ble_eq]
            omega
          simp [this]
        refine ⟨?_, ⟨xx.locs, xx.arenas, xx.blocks, fun b hb hf => hnew b hb (xx.freed b hb hf), xx.store⟩, ?_⟩
        · refine back_globals h b3 (fun l lvl hl => b1 l lvl (a1 l lvl hl)) b3.ar _ (fun f hf => ?_) fun b hb hf => ?_
          · rcases List.mem_cons.1 hf with rfl | hf
            · exact Nat.le_refl _
            · exact b3.fr f hf
          · exact hnew b (Nat.lt_of_lt_of_le hb h.s0) hf
        · cases o with
          | next => exact fun b hb => by simp [outVal] at hb
          | ret v =>
            rw [show outVal (.ret v) = v from rfl, br.2 hval]
            exact fun b hb => by simp at hb

theorem run_safe (P : Prog) (hP : ∀ f, P.ok f = true) (root : List Nat) (S0 : Nat) : ∀ n, CallOk P root S0 (run P n)
  | 0 => fun _ _ _ _ _ _ _ _ _ => trivial
  | n + 1 => call_ok P (run_safe P hP root S0 n) hP n

/-- The state in which `main` is called: the global variables set, everything in one arena. -/
def start (P : Prog) (vs : Nat → Val) (m : Nat) (coins : List Bool) : M := ⟨vs, P.globals.length, 1, m, [], coins⟩

end Esc

open Esc

/-- A program uses no memory that was given back: whatever a variable refers to is alive. `main` is function 0
and has no parameters. -/
def C136_statement : Prop :=
  ∀ (P : Prog) (n m : Nat) (vs : Nat → Val) (coins : List Bool), (P.fn 0).params = [] → (P.fn 0).rparams = [] →
    (∀ l, Good [0] (start P vs m coins) (vs l)) → (run P n 0 [] [] [0] (start P vs m coins)).isBad = false

/-- **C136**, for programs in which
* no array or map is assigned inside an `if` or a loop to a variable declared outside it, nor a string to a
  field or a string, array, map or struct to an element of such a variable,
* only variables declared in the innermost scope are passed by reference,
* functions with a `&` parameter return values from outside `if`s and loops only,
* global variables are only assigned numbers.

Missing: programs with such a statement. -/
theorem C136_partial (P : Prog) (hP : ∀ f, P.ok f = true) (n m : Nat) (vs : Nat → Val) (coins : List Bool)
    (h0 : (P.fn 0).params = []) (h1 : (P.fn 0).rparams = []) (hv : ∀ l, Good [0] (start P vs m coins) (vs l)) :
    (run P n 0 [] [] [0] (start P vs m coins)).isBad = false := by
  have hi : Inv [0] m P.globals.length [0] 0 (passed P.globals.length []) (start P vs m coins) := by
    refine ⟨?_, ?_, ?_, fun l hl => .inr ⟨hl, rfl⟩, by simp, by simp, by simp [start], by simp [start], by simp [start]⟩
    · intro l lvl hl
      rcases hl with ⟨hl, _⟩ | ⟨hl, rfl⟩
      · simp at hl
      · exact ⟨hl, hv l⟩
    · intro l j hl
      rcases hl with ⟨hl, _⟩ | ⟨_, hl⟩
      · simp at hl
      · cases hl
    · intro l a b ha hb
      rcases ha with ⟨ha, _⟩ | ⟨_, rfl⟩
      · simp at ha
      · rcases hb with ⟨hb, _⟩ | ⟨_, rfl⟩
        · simp at hb
        · rfl
  have := run_safe P hP [0] m n 0 [] [] [0] (start P vs m coins) hi (by simp [h0]) (by simp [h1]) (by simp)
  match hr : run P n 0 [] [] [0] (start P vs m coins) with
  | .more => rfl
  | .ok _ => rfl
  | .bad =>
    rw [hr] at this
    exact this.elim

namespace Esc

def none' : Nat → Val := fun _ => []

def main (body : Stmt) : Prog := ⟨fun _ => ⟨[], [], false, body⟩, []⟩

def block : List Stmt → Stmt
  | [] => .skip
  | s :: r => .seq s (block r)

end Esc

/-- `mut a = {1}  if c { a = {2} }  println(a)`. -/
def C136_array : Prog := main (block
  [.decl 0 .arr .nil, .ifS (block [.assign 0 .arr .nil]) .skip, .use (.var 0)])

theorem C136_witness : (run C136_array 2 0 [] [] [0] (start C136_array none' 0 [true])).isBad = true := by decide +kernel

/-- `mut p = Person{name: ""}  if c { p.name = "a" + b }  println(p.name)`. -/
def C136_field : Prog := main (block
  [.decl 0 .struct (.cons .lit .nil), .ifS (block [.setField 0 0 .str (.comp .lit .lit)]) .skip, .use (.slot 0 0)])

theorem C136_field_witness : (run C136_field 2 0 [] [] [0] (start C136_field none' 0 [true])).isBad = true := by decide +kernel

/-- `for i in range(0, 1) { names[i] = "n${i}" }  println(names[0])`. -/
def C136_elem : Prog := main (block
  [.decl 0 .arr (.cons .lit .nil), .loop (block [.setElem 0 0 .str (.comp .lit .lit)]), .use (.slot 0 0)])

theorem C136_elem_witness : (run C136_elem 3 0 [] [] [0] (start C136_elem none' 0 [true])).isBad = true := by decide +kernel

/-- `do set(&s string) { s = "a" + b }`, called in a loop with a variable declared before it. -/
def C136_ref : Prog where
  fn f := if f = 0 then ⟨[], [], false, block [.decl 0 .str .lit, .loop (block [.call 1 1 [] [0]]), .use (.var 0)]⟩
    else ⟨[], [7], false, block [.assign 7 .str (.comp .lit .lit)]⟩
  globals := []

theorem C136_ref_witness : (run C136_ref 4 0 [] [] [0] (start C136_ref none' 0 [true])).isBad = true := by decide +kernel

/-- `do name(&n int) -> string { if c { return "a" + b } return "" }`. -/
def C136_return : Prog where
  fn f := if f = 0 then ⟨[], [], false, block [.decl 0 .plain .lit, .call 1 1 [] [0], .use (.var 1)]⟩
    else ⟨[], [7], true, block [.ifS (block [.ret (.comp .lit .lit)]) .skip, .ret .lit]⟩
  globals := []

theorem C136_return_witness : (run C136_return 4 0 [] [] [0] (start C136_return none' 0 [true])).isBad = true := by decide +kernel

/-- `do add(s string) { arrays.append(items, s + "!") }` for a global array `items`. -/
def C136_global : Prog where
  fn f := if f = 0 then ⟨[], [], false, block [.call 1 1 [.lit] [], .use (.var 9)]⟩
    else ⟨[2], [], false, block [.push 9 .str (.comp (.var 2) .lit)]⟩
  globals := [9]

theorem C136_global_witness : (run C136_global 3 0 [] [] [0] (start C136_global none' 0 [])).isBad = true := by decide +kernel

theorem C136_fails : ¬ C136_statement := by
  intro h
  have := h C136_array 2 0 none' [true] rfl rfl fun l b hb => by simp [none'] at hb
  rw [C136_witness] at this
  cases this

/-- What the property holds for: strings assigned, and elements appended, in nested scopes; a struct built in
a function with a return type. -/
private def fineP : Prog where
  fn f := if f = 0 then ⟨[], [], false, block
      [.decl 0 .str .lit, .decl 1 .arr .nil, .decl 3 .struct (.cons .lit .nil),
       .loop (block [.ifS (block [.assign 0 .str (.comp (.var 0) .lit), .push 1 .str (.var 0),
         .assign 3 .struct (.cons (.var 0) .nil)]) .skip]),
       .call 2 1 [.var 0] [], .use (.cons (.var 0) (.cons (.var 1) (.cons (.var 3) (.var 2))))]⟩
    else ⟨[5], [], true, block [.ifS (block [.ret (.cons (.comp (.var 5) .lit) .nil)]) .skip, .ret .nil]⟩
  globals := []

example : (∀ f, fineP.ok f = true) ∧ (match run fineP 5 0 [] [] [0] (start fineP none' 0 [true, true, true, true, true, false]) with
    | .ok _ => true | _ => false) = true := by
  refine ⟨fun f => ?_, by decide +kernel⟩
  by_cases h : f = 0
  · subst h
    decide +kernel
  · simp only [Prog.ok, fineP, if_neg h]
    decide +kernel

end Verif.Props
