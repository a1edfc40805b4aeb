import Verif.Model.Channels
import Mathlib.Data.Int.ModEq

/-! The invariant of channels. -/
namespace Verif.Channels

/-- The thread holds the mutex. -/
def inside : Pc → Bool
  | .sTest _ _ | .sGoWait _ | .sWrite _ | .sTail _ | .sCount _ | .sSig => true
  | .rTest _ | .rGoWait | .rRead | .rHead _ | .rCount _ | .rSig => true
  | .cSet | .cB1 | .cB2 | .unl => true
  | _ => false

/-- A receiver that will look at the buffer again or is about to take a value. -/
def rAct : Pc → Bool
  | .rWoken | .rTest _ | .rRead | .rHead _ | .rCount _ => true
  | _ => false

/-- A sender that will look at the buffer again or is about to push a value. -/
def sAct : Pc → Bool
  | .sWoken _ | .sTest _ _ | .sWrite _ | .sTail _ | .sCount _ => true
  | _ => false

/-- Where the holder of the mutex is. -/
def opc (thr : List Pc) (owner : Option Nat) : Option Pc := owner.bind fun i => thr[i]?

/-- Mutual exclusion. -/
def Mx (thr : List Pc) (owner : Option Nat) : Prop :=
  (∀ j p, thr[j]? = some p → (inside p = true ↔ owner = some j)) ∧ ∀ j, owner = some j → j < thr.length

/-- The buffer from index `h` on holds `q`. -/
def Stored (s : St) (h : Nat) (q : List Int) : Prop := ∀ k (hk : k < q.length), s.buf ((h + k) % s.cap) = q[k]

def Base (s : St) (h : Nat) (q : List Int) : Prop := s.tail = (h + s.count) % s.cap ∧ Stored s h q

def RepPc (s : St) (q : List Int) : Option Pc → Prop
  | some (.sWrite _) => Base s s.head q ∧ s.count < s.cap ∧ s.closed = false
  | some (.sTail v) => Base s s.head q ∧ s.count < s.cap ∧ s.closed = false ∧ s.buf s.tail = v
  | some (.sCount v) =>
    s.tail = (s.head + s.count + 1) % s.cap ∧ Stored s s.head q ∧ s.count < s.cap ∧ s.closed = false ∧
      s.buf ((s.head + s.count) % s.cap) = v
  | some .rRead => Base s s.head q ∧ 0 < s.count
  | some (.rHead v) => Base s s.head q ∧ q.head? = some v
  | some (.rCount v) => ∃ h, s.head = (h + 1) % s.cap ∧ Base s h q ∧ q.head? = some v
  | some (.sGoWait _) => Base s s.head q ∧ s.count = s.cap ∧ s.closed = false
  | some .rGoWait => Base s s.head q ∧ s.count = 0 ∧ s.closed = false
  | some .cB1 => Base s s.head q ∧ s.closed = true
  | some .cB2 => Base s s.head q ∧ s.closed = true
  | _ => Base s s.head q

def Rep (s : St) (o : Option Pc) : Prop :=
  0 < s.cap ∧ s.head < s.cap ∧ s.tail < s.cap ∧ s.count ≤ s.cap ∧
    ∃ q, s.sent = s.recv ++ q ∧ s.count = q.length ∧ RepPc s q o

/-- No wake-up is lost. -/
structure Wk (s : St) (o : Option Pc) : Prop where
  wr : 0 < s.thr.countP isRWait → s.count ≤ s.thr.countP rAct + if o = some .sSig then 1 else 0
  ws : 0 < s.thr.countP isSWait → s.cap ≤ s.count + s.thr.countP sAct + if o = some .rSig then 1 else 0
  cr : s.closed = true → 0 < s.thr.countP isRWait → o = some .cB1 ∨ o = some .cB2
  cs : s.closed = true → 0 < s.thr.countP isSWait → o = some .cB1

structure Inv (s : St) : Prop where
  mx : Mx s.thr s.owner
  rep : Rep s (opc s.thr s.owner)
  wk : Wk s (opc s.thr s.owner)
  lost : s.lost ≠ [] → s.closed = true

theorem lt_of_get {l : List Pc} {i : Nat} {p : Pc} (h : l[i]? = some p) : i < l.length := by
  by_contra hc
  rw [List.getElem?_eq_none (by omega)] at h
  cases h

theorem countP_set' (f : Pc → Bool) (l : List Pc) (i : Nat) (p q : Pc) (h : l[i]? = some p) :
    (l.set i q).countP f + (f p).toNat = l.countP f + (f q).toNat := by
  induction l generalizing i with
  | nil => simp at h
  | cons a r ih =>
    cases i with
    | zero =>
      simp only [List.getElem?_cons_zero, Option.some.injEq] at h
      subst h
      rw [List.set_cons_zero, List.countP_cons, List.countP_cons]
      cases f a <;> cases f q <;> simp
    | succ i =>
      have := ih i (by simpa using h)
      rw [List.set_cons_succ, List.countP_cons, List.countP_cons]
      omega

theorem get_set (l : List Pc) (i j : Nat) (q : Pc) (hi : i < l.length) :
    (l.set i q)[j]? = if i = j then some q else l[j]? := by
  rw [List.getElem?_set]
  by_cases h : i = j
  · subst h; simp [hi]
  · simp [h]

/-! Mutual exclusion. -/

theorem mx_same {l : List Pc} {o : Option Nat} {i : Nat} {p q : Pc} (h : Mx l o) (hp : l[i]? = some p)
    (hi : inside q = inside p) : Mx (l.set i q) o := by
  refine ⟨fun j r hr => ?_, fun j hj => by rw [List.length_set]; exact h.2 j hj⟩
  rw [get_set l i j q (lt_of_get hp)] at hr
  split at hr
  · rename_i e
    subst e
    injection hr with hr
    subst hr
    rw [hi]
    exact h.1 i p hp
  · exact h.1 j r hr

theorem mx_acquire {l : List Pc} {i : Nat} {p q : Pc} (h : Mx l none) (hp : l[i]? = some p)
    (hi : inside q = true) : Mx (l.set i q) (some i) := by
  refine ⟨fun j r hr => ?_, fun j hj => by
    injection hj with hj; subst hj; rw [List.length_set]; exact lt_of_get hp⟩
  rw [get_set l i j q (lt_of_get hp)] at hr
  split at hr
  · rename_i e
    subst e
    injection hr with hr
    subst hr
    simp [hi]
  · rename_i e
    have := h.1 j r hr
    simp only [reduceCtorEq, iff_false] at this
    simp [this, e]

theorem mx_release {l : List Pc} {o : Option Nat} {i : Nat} {p q : Pc} (h : Mx l o) (hp : l[i]? = some p)
    (hi : inside p = true) (hq : inside q = false) : Mx (l.set i q) none := by
  refine ⟨fun j r hr => ?_, fun j hj => by cases hj⟩
  have ho := (h.1 i p hp).1 hi
  rw [get_set l i j q (lt_of_get hp)] at hr
  split at hr
  · injection hr with hr
    subst hr
    simp [hq]
  · rename_i e
    have := h.1 j r hr
    rw [ho] at this
    simp only [Option.some.injEq, e, iff_false] at this
    simp [this]

theorem mx_map {l : List Pc} {o : Option Nat} (f : Pc → Pc) (hf : ∀ p, inside (f p) = inside p)
    (h : Mx l o) : Mx (l.map f) o := by
  refine ⟨fun j r hr => ?_, fun j hj => by rw [List.length_map]; exact h.2 j hj⟩
  rw [List.getElem?_map] at hr
  cases hl : l[j]? with
  | none => rw [hl] at hr; cases hr
  | some p =>
    rw [hl] at hr
    injection hr with hr
    rw [← hr, hf]
    exact h.1 j p hl

theorem opc_in {l : List Pc} {o : Option Nat} {i : Nat} {p : Pc} (h : Mx l o) (hp : l[i]? = some p)
    (hi : inside p = true) : o = some i ∧ opc l o = some p := by
  have ho := (h.1 i p hp).1 hi
  exact ⟨ho, by rw [ho]; exact hp⟩

theorem opc_set_in {l : List Pc} {i : Nat} (q : Pc) (hi : i < l.length) : opc (l.set i q) (some i) = some q := by
  show (l.set i q)[i]? = some q
  rw [get_set l i i q hi, if_pos rfl]

theorem opc_set_out {l : List Pc} {o : Option Nat} {i : Nat} {p : Pc} (q : Pc) (h : Mx l o)
    (hp : l[i]? = some p) (hi : inside p = false) : opc (l.set i q) o = opc l o := by
  cases o with
  | none => rfl
  | some j =>
    show (l.set i q)[j]? = l[j]?
    rw [get_set l i j q (lt_of_get hp), if_neg]
    intro e
    subst e
    have := (h.1 i p hp).2 rfl
    rw [hi] at this
    cases this

theorem opc_map {l : List Pc} {o : Option Nat} (f : Pc → Pc) : opc (l.map f) o = (opc l o).map f := by
  cases o with
  | none => rfl
  | some j => show (l.map f)[j]? = (l[j]?).map f; rw [List.getElem?_map]

/-! Each step keeps the invariant. -/

/-- How the four counts change when thread `i` moves. -/
theorem counts {l : List Pc} {i : Nat} {p : Pc} (q : Pc) (hp : l[i]? = some p) :
    (l.set i q).countP isRWait + (isRWait p).toNat = l.countP isRWait + (isRWait q).toNat ∧
    (l.set i q).countP rAct + (rAct p).toNat = l.countP rAct + (rAct q).toNat ∧
    (l.set i q).countP isSWait + (isSWait p).toNat = l.countP isSWait + (isSWait q).toNat ∧
    (l.set i q).countP sAct + (sAct p).toNat = l.countP sAct + (sAct q).toNat :=
  ⟨countP_set' _ _ _ _ _ hp, countP_set' _ _ _ _ _ hp, countP_set' _ _ _ _ _ hp, countP_set' _ _ _ _ _ hp⟩

theorem inv_in {s s' : St} {i : Nat} {p : Pc} (q : Pc) (h : Inv s) (hp : s.thr[i]? = some p)
    (hi : inside p = true) (hq : inside q = true) (ht : s'.thr = s.thr.set i q) (ho : s'.owner = s.owner)
    (hl : s'.lost ≠ [] → s'.closed = true)
    (hr : Rep s (some p) → Rep s' (some q)) (hw : Rep s (some p) → Wk s (some p) → Wk s' (some q)) : Inv s' := by
  obtain ⟨ho', hpc⟩ := opc_in h.mx hp hi
  have e : opc s'.thr s'.owner = some q := by rw [ht, ho, ho']; exact opc_set_in q (lt_of_get hp)
  have r := h.rep
  have w := h.wk
  rw [hpc] at r w
  exact ⟨by rw [ht, ho]; exact mx_same h.mx hp (by rw [hi, hq]), by rw [e]; exact hr r, by rw [e]; exact hw r w, hl⟩

theorem inv_out {s s' : St} {i : Nat} {p : Pc} (q : Pc) (h : Inv s) (hp : s.thr[i]? = some p)
    (hi : inside p = false) (hq : inside q = false) (ht : s'.thr = s.thr.set i q) (ho : s'.owner = s.owner)
    (hl : s'.lost ≠ [] → s'.closed = true)
    (hr : ∀ o, Rep s o → Rep s' o) (hw : ∀ o, Rep s o → Wk s o → Wk s' o) : Inv s' := by
  have e : opc s'.thr s'.owner = opc s.thr s.owner := by rw [ht, ho]; exact opc_set_out q h.mx hp hi
  exact ⟨by rw [ht, ho]; exact mx_same h.mx hp (by rw [hi, hq]), by rw [e]; exact hr _ h.rep,
    by rw [e]; exact hw _ h.rep h.wk, hl⟩

theorem inv_acquire {s s' : St} {i : Nat} {p q : Pc} (h : Inv s) (hp : s.thr[i]? = some p)
    (hq : inside q = true) (hs : s.acquire i q = some s')
    (hr : ∀ l o, Rep s none → Rep { s with thr := l, owner := o } (some q))
    (hw : Wk s none → Wk { s.goto i q with owner := some i } (some q)) : Inv s' := by
  unfold St.acquire at hs
  split at hs
  · rename_i ho
    injection hs with hs
    subst hs
    have r := h.rep
    have w := h.wk
    have m := h.mx
    rw [ho] at r w m
    have e : opc (s.thr.set i q) (some i) = some q := opc_set_in q (lt_of_get hp)
    refine ⟨mx_acquire m hp hq, ?_, ?_, h.lost⟩
    · show Rep _ (opc (s.thr.set i q) (some i)); rw [e]; exact hr _ _ r
    · show Wk _ (opc (s.thr.set i q) (some i)); rw [e]; exact hw w
  · cases hs

theorem inv_release {s s' : St} {i : Nat} {p : Pc} (q : Pc) (h : Inv s) (hp : s.thr[i]? = some p)
    (hi : inside p = true) (hq : inside q = false) (hs : s' = { s.goto i q with owner := none })
    (hr : Rep s (some p) → Rep s' none) (hw : Rep s (some p) → Wk s (some p) → Wk s' none) : Inv s' := by
  obtain ⟨ho', hpc⟩ := opc_in h.mx hp hi
  have r := h.rep
  have w := h.wk
  rw [hpc] at r w
  subst hs
  exact ⟨mx_release h.mx hp hi hq, hr r, hw r w, h.lost⟩

/-- Proves `Wk` of the new state from `w : Wk` of the old one. -/
macro "wk" q:term "," hp:ident "," w:ident : tactic => `(tactic| (
  have cc := counts $q $hp
  obtain ⟨c1, c2, c3, c4⟩ := cc
  simp only [isRWait, rAct, isSWait, sAct, Bool.toNat_false, Bool.toNat_true, Nat.add_zero] at c1 c2 c3 c4
  obtain ⟨w1, w2, w3, w4⟩ := $w
  try simp only [reduceCtorEq, Option.some.injEq, if_false, if_true, Nat.add_zero, false_or, or_false] at w1 w2 w3 w4
  constructor <;>
  (try simp only [St.goto, reduceCtorEq, Option.some.injEq, if_false, if_true, Nat.add_zero, false_or, or_false]) <;>
  first
    | omega
    | (intro hw; have hx := w1 (by omega); omega)
    | (intro hw; have hx := w2 (by omega); omega)
    | (intro hc hw; exact w3 hc (by omega))
    | (intro hc hw; exact w4 hc (by omega))
    | skip))

theorem mod_inj {c h k m : Nat} (hk : k < m) (hm : m < c) : (h + k) % c ≠ (h + m) % c := by
  intro e
  have : k ≡ m [MOD c] := Nat.ModEq.add_left_cancel' h e
  have h1 : k % c = m % c := this
  rw [Nat.mod_eq_of_lt (by omega), Nat.mod_eq_of_lt hm] at h1
  omega

theorem countP_wake (f g : Pc → Bool) (w : Pc → Pc) (h : ∀ p, f (w p) = g p) (l : List Pc) :
    (l.map w).countP f = l.countP g := by
  rw [List.countP_map]
  congr 1
  funext p
  exact h p

theorem countP_none (l : List Pc) : l.countP (fun _ => false) = 0 := by
  rw [List.countP_eq_zero]; simp

theorem inv_run {s s' : St} {i : Nat} {p : Pc} (h : Inv s) (hp : s.thr[i]? = some p)
    (hs : runPc s i p = some s') : Inv s' := by
  cases p with
  | idle => cases hs
  | sCheck t v =>
    rw [runPc] at hs
    split at hs
    · rename_i hc
      injection hs with hs
      subst hs
      refine inv_out .idle h hp rfl rfl ?_ ?_ ?_ ?_ ?_
      · cases t <;> rfl
      · cases t <;> rfl
      · cases t <;> exact fun _ => hc
      · cases t <;> exact fun _ hr => hr
      · intro o _ w
        have : Wk (s.goto i .idle) o := by wk Pc.idle, hp, w
        cases t
        · exact ⟨this.1, this.2, this.3, this.4⟩
        · exact this
    · injection hs with hs
      subst hs
      refine inv_out _ h hp rfl rfl rfl rfl h.lost (fun _ hr => hr) ?_
      intro o _ w
      wk (Pc.sLock t v), hp, w
  | sLock t v =>
    refine inv_acquire h hp rfl hs (fun _ _ hr => hr) ?_
    intro w
    wk (Pc.sTest t v), hp, w
  | sTest t v =>
    rw [runPc] at hs
    have toUnl : s.count = s.cap ∨ s.closed = true → Inv (s.goto i .unl) := by
      intro hc
      refine inv_in .unl h hp rfl rfl rfl rfl h.lost (fun hr => hr) ?_
      rintro ⟨a, b, c, d, q, h1, h2, h3⟩ w
      by_cases hcl : s.closed = true
      · have := w.cs hcl
        have this : ¬ 0 < s.thr.countP isSWait := fun hx => by cases this hx
        wk Pc.unl, hp, w
      · have : s.count = s.cap := by simpa [hcl] using hc
        wk Pc.unl, hp, w
    have toWrite : s.count ≠ s.cap → s.closed = false → Inv (s.goto i (.sWrite v)) := by
      intro h1 h2
      refine inv_in (.sWrite v) h hp rfl rfl rfl rfl h.lost ?_ ?_
      · rintro ⟨a, b, c, d, q, g1, g2, g3⟩
        exact ⟨a, b, c, d, q, g1, g2, g3, by show s.count < s.cap; omega, h2⟩
      · intro _ w
        wk (Pc.sWrite v), hp, w
    cases t with
    | true =>
      rw [if_pos rfl] at hs
      split at hs
      · rename_i hc
        injection hs with hs
        subst hs
        exact toUnl hc
      · rename_i hc
        injection hs with hs
        subst hs
        push_neg at hc
        exact toWrite hc.1 (by simpa using hc.2)
    | false =>
      rw [if_neg (by simp)] at hs
      split at hs
      · rename_i hc
        injection hs with hs
        subst hs
        refine inv_in (.sGoWait v) h hp rfl rfl rfl rfl h.lost ?_ ?_
        · rintro ⟨a, b, c, d, q, g1, g2, g3⟩
          exact ⟨a, b, c, d, q, g1, g2, g3, hc.1, Bool.eq_false_iff.2 hc.2⟩
        · intro _ w
          have := hc.1
          wk (Pc.sGoWait v), hp, w
      · rename_i hc
        split at hs
        · rename_i hcl
          injection hs with hs
          subst hs
          have := toUnl (Or.inr hcl)
          exact ⟨this.mx, this.rep, ⟨this.wk.1, this.wk.2, this.wk.3, this.wk.4⟩, fun _ => hcl⟩
        · rename_i hcl
          injection hs with hs
          subst hs
          exact toWrite (fun e => hc ⟨e, hcl⟩) (by simpa using hcl)
  | sGoWait v =>
    rw [runPc] at hs
    injection hs with hs
    refine inv_release _ h hp rfl rfl hs.symm ?_ ?_
    · subst hs
      rintro ⟨a, b, c, d, q, h1, h2, h3⟩
      exact ⟨a, b, c, d, q, h1, h2, h3.1⟩
    · subst hs
      rintro ⟨a, b, c, d, q, h1, h2, h3, h4, h5⟩ w
      wk (Pc.sWait v), hp, w
      simp [h5]
  | sWait v => cases hs
  | sWoken v =>
    refine inv_acquire h hp rfl hs (fun _ _ hr => hr) ?_
    intro w
    wk (Pc.sTest false v), hp, w
  | sWrite v =>
    rw [runPc] at hs
    injection hs with hs
    subst hs
    refine inv_in (.sTail v) h hp rfl rfl rfl rfl h.lost ?_ ?_
    · rintro ⟨a, b, c, d, q, h1, h2, ⟨h3, h4⟩, h5, h6⟩
      refine ⟨a, b, c, d, q, h1, h2, ⟨h3, ?_⟩, h5, h6, ?_⟩
      · intro k hk
        show (if (s.head + k) % s.cap = s.tail then v else s.buf ((s.head + k) % s.cap)) = q[k]
        rw [if_neg, h4 k hk]
        rw [h3]
        exact mod_inj (by omega) h5
      · show (if s.tail = s.tail then v else _) = v
        rw [if_pos rfl]
    · intro _ w
      wk (Pc.sTail v), hp, w
  | sTail v =>
    rw [runPc] at hs
    injection hs with hs
    subst hs
    refine inv_in (.sCount v) h hp rfl rfl rfl rfl h.lost ?_ ?_
    · rintro ⟨a, b, c, d, q, h1, h2, ⟨h3, h4⟩, h5, h6, h7⟩
      refine ⟨a, b, Nat.mod_lt _ a, d, q, h1, h2, ?_, h4, h5, h6, ?_⟩
      · show (s.tail + 1) % s.cap = (s.head + s.count + 1) % s.cap
        rw [h3, Nat.mod_add_mod]
      · show s.buf ((s.head + s.count) % s.cap) = v
        rw [← h3, h7]
    · intro _ w
      wk (Pc.sCount v), hp, w
  | sCount v =>
    rw [runPc] at hs
    injection hs with hs
    subst hs
    refine inv_in .sSig h hp rfl rfl rfl rfl h.lost ?_ ?_
    · rintro ⟨a, b, c, d, q, h1, h2, h3, h4, h5, h6, h7⟩
      refine ⟨a, b, c, h5, q ++ [v], ?_, ?_, ?_, ?_⟩
      · show s.sent ++ [v] = s.recv ++ (q ++ [v])
        rw [h1, List.append_assoc]
      · show s.count + 1 = _
        simp [h2]
      · exact h3
      · intro k hk
        show s.buf ((s.head + k) % s.cap) = _
        rw [List.getElem_append]
        split
        · exact h4 k _
        · rename_i hk'
          have : k = s.count := by simp at hk; omega
          subst this
          rw [h7]; simp [h2]
    · rintro - w
      wk Pc.sSig, hp, w
  | sSig => cases hs
  | rLock t =>
    refine inv_acquire h hp rfl hs (fun _ _ hr => hr) ?_
    intro w
    wk (Pc.rTest t), hp, w
  | rTest t =>
    rw [runPc] at hs
    have toUnl : s.count = 0 → Inv (s.goto i .unl) := by
      intro hc
      refine inv_in .unl h hp rfl rfl rfl rfl h.lost (fun hr => hr) ?_
      rintro - w
      wk Pc.unl, hp, w
    have toRead : s.count ≠ 0 → Inv (s.goto i .rRead) := by
      intro h1
      refine inv_in .rRead h hp rfl rfl rfl rfl h.lost ?_ ?_
      · rintro ⟨a, b, c, d, q, g1, g2, g3⟩
        exact ⟨a, b, c, d, q, g1, g2, g3, by show 0 < s.count; omega⟩
      · intro _ w
        wk Pc.rRead, hp, w
    cases t with
    | true =>
      rw [if_pos rfl] at hs
      split at hs
      · rename_i hc
        injection hs with hs
        subst hs
        exact toUnl hc
      · rename_i hc
        injection hs with hs
        subst hs
        exact toRead hc
    | false =>
      rw [if_neg (by simp)] at hs
      split at hs
      · rename_i hc
        injection hs with hs
        subst hs
        refine inv_in .rGoWait h hp rfl rfl rfl rfl h.lost ?_ ?_
        · rintro ⟨a, b, c, d, q, g1, g2, g3⟩
          exact ⟨a, b, c, d, q, g1, g2, g3, hc.1, Bool.eq_false_iff.2 hc.2⟩
        · intro _ w
          have := hc.1
          wk Pc.rGoWait, hp, w
      · rename_i hc
        split at hs
        · rename_i hcl
          injection hs with hs
          subst hs
          exact toUnl hcl.1
        · rename_i hcl
          injection hs with hs
          subst hs
          exact toRead (fun e => by
            by_cases hx : s.closed = true
            · exact hcl ⟨e, hx⟩
            · exact hc ⟨e, hx⟩)
  | rGoWait =>
    rw [runPc] at hs
    injection hs with hs
    refine inv_release _ h hp rfl rfl hs.symm ?_ ?_
    · subst hs
      rintro ⟨a, b, c, d, q, h1, h2, h3⟩
      exact ⟨a, b, c, d, q, h1, h2, h3.1⟩
    · subst hs
      rintro ⟨a, b, c, d, q, h1, h2, h3, h4, h5⟩ w
      wk Pc.rWait, hp, w
      simp [h5]
  | rWait => cases hs
  | rWoken =>
    refine inv_acquire h hp rfl hs (fun _ _ hr => hr) ?_
    intro w
    wk (Pc.rTest false), hp, w
  | rRead =>
    rw [runPc] at hs
    injection hs with hs
    subst hs
    refine inv_in (.rHead (s.buf s.head)) h hp rfl rfl rfl rfl h.lost ?_ ?_
    · rintro ⟨a, b, c, d, q, h1, h2, ⟨h3, h4⟩, h5⟩
      refine ⟨a, b, c, d, q, h1, h2, ⟨h3, h4⟩, ?_⟩
      have := h4 0 (by omega)
      rw [Nat.add_zero, Nat.mod_eq_of_lt b] at this
      rw [this, List.head?_eq_getElem?, List.getElem?_eq_getElem]
    · intro _ w
      wk (Pc.rHead (s.buf s.head)), hp, w
  | rHead v =>
    rw [runPc] at hs
    injection hs with hs
    subst hs
    refine inv_in (.rCount v) h hp rfl rfl rfl rfl h.lost ?_ ?_
    · rintro ⟨a, b, c, d, q, h1, h2, ⟨h3, h4⟩, h5⟩
      exact ⟨a, Nat.mod_lt _ a, c, d, q, h1, h2, s.head, rfl, ⟨h3, h4⟩, h5⟩
    · intro _ w
      wk (Pc.rCount v), hp, w
  | rCount v =>
    rw [runPc] at hs
    injection hs with hs
    subst hs
    refine inv_in .rSig h hp rfl rfl rfl rfl h.lost ?_ ?_
    · rintro ⟨a, b, c, d, q, h1, h2, h0, g1, ⟨g2, g3⟩, g4⟩
      cases q with
      | nil => cases g4
      | cons x r =>
        injection g4 with g4
        subst g4
        simp only [List.length_cons] at h2
        refine ⟨a, b, c, by show s.count - 1 ≤ s.cap; omega, r, ?_, by show s.count - 1 = _; omega, ?_, ?_⟩
        · show s.sent = s.recv ++ [x] ++ r
          rw [h1]; simp
        · show s.tail = (s.head + (s.count - 1)) % s.cap
          rw [g2, g1, Nat.mod_add_mod]
          congr 1
          omega
        · intro k hk
          show s.buf ((s.head + k) % s.cap) = r[k]
          have := g3 (k + 1) (by simpa using hk)
          rw [g1, Nat.mod_add_mod, show h0 + 1 + k = h0 + (k + 1) by omega, this]
          rfl
    · rintro ⟨a, b, c, d, q, h1, h2, h0, g1, ⟨g2, g3⟩, g4⟩ w
      have : 0 < s.count := by
        cases q with
        | nil => cases g4
        | cons x r => simp at h2; omega
      wk Pc.rSig, hp, w
  | rSig => cases hs
  | cLock =>
    refine inv_acquire h hp rfl hs (fun _ _ hr => hr) ?_
    intro w
    wk Pc.cSet, hp, w
  | cSet =>
    rw [runPc] at hs
    injection hs with hs
    subst hs
    refine inv_in .cB1 h hp rfl rfl rfl rfl (fun _ => rfl) ?_ ?_
    · rintro ⟨a, b, c, d, q, h1, h2, h3⟩
      exact ⟨a, b, c, d, q, h1, h2, h3, rfl⟩
    · intro _ w
      wk Pc.cB1, hp, w
      · exact fun _ _ => trivial
      · exact fun _ _ => trivial
  | cB1 =>
    rw [runPc] at hs
    injection hs with hs
    subst hs
    obtain ⟨ho, hpc⟩ := opc_in h.mx hp rfl
    have r := h.rep
    have w := h.wk
    rw [hpc] at r w
    have e : opc ((s.thr.set i .cB2).map wakeS) s.owner = some .cB2 := by
      rw [opc_map, ho, opc_set_in .cB2 (lt_of_get hp)]; rfl
    refine ⟨mx_map _ (by intro p; cases p <;> rfl) (mx_same h.mx hp rfl), ?_, ?_, h.lost⟩
    · show Rep _ (opc ((s.thr.set i .cB2).map wakeS) s.owner)
      rw [e]; exact r
    · show Wk _ (opc ((s.thr.set i .cB2).map wakeS) s.owner)
      rw [e]
      have cc := counts Pc.cB2 hp
      obtain ⟨c1, c2, c3, c4⟩ := cc
      simp only [isRWait, rAct, isSWait, sAct, Bool.toNat_false, Nat.add_zero] at c1 c2 c3 c4
      have k1 := countP_wake isRWait isRWait wakeS (by intro p; cases p <;> rfl) (s.thr.set i .cB2)
      have k2 := countP_wake rAct rAct wakeS (by intro p; cases p <;> rfl) (s.thr.set i .cB2)
      have k3 := countP_wake isSWait (fun _ => false) wakeS (by intro p; cases p <;> rfl) (s.thr.set i .cB2)
      rw [countP_none] at k3
      have w1 := w.wr
      simp only [reduceCtorEq, Option.some.injEq, if_false, Nat.add_zero] at w1
      constructor
      · show 0 < ((s.thr.set i .cB2).map wakeS).countP isRWait → s.count ≤ ((s.thr.set i .cB2).map wakeS).countP rAct + _
        omega
      · show 0 < ((s.thr.set i .cB2).map wakeS).countP isSWait → _
        omega
      · exact fun _ _ => Or.inr rfl
      · show _ → 0 < ((s.thr.set i .cB2).map wakeS).countP isSWait → _
        omega
  | cB2 =>
    rw [runPc] at hs
    injection hs with hs
    subst hs
    obtain ⟨ho, hpc⟩ := opc_in h.mx hp rfl
    have r := h.rep
    have w := h.wk
    rw [hpc] at r w
    have e : opc ((s.thr.set i .unl).map wakeR) s.owner = some .unl := by
      rw [opc_map, ho, opc_set_in .unl (lt_of_get hp)]; rfl
    refine ⟨mx_map _ (by intro p; cases p <;> rfl) (mx_same h.mx hp rfl), ?_, ?_, h.lost⟩
    · show Rep _ (opc ((s.thr.set i .unl).map wakeR) s.owner)
      rw [e]
      obtain ⟨a, b, c, d, q, h1, h2, h3, -⟩ := r
      exact ⟨a, b, c, d, q, h1, h2, h3⟩
    · show Wk _ (opc ((s.thr.set i .unl).map wakeR) s.owner)
      rw [e]
      have cc := counts Pc.unl hp
      obtain ⟨c1, c2, c3, c4⟩ := cc
      simp only [isRWait, rAct, isSWait, sAct, Bool.toNat_false, Nat.add_zero] at c1 c2 c3 c4
      have k1 := countP_wake isRWait (fun _ => false) wakeR (by intro p; cases p <;> rfl) (s.thr.set i .unl)
      have k3 := countP_wake isSWait isSWait wakeR (by intro p; cases p <;> rfl) (s.thr.set i .unl)
      have hcl : s.closed = true := by
        obtain ⟨a, b, c, d, q, h1, h2, h3, h4⟩ := r
        exact h4
      have w4 : ¬ 0 < s.thr.countP isSWait := fun hx => by cases w.cs hcl hx
      rw [countP_none] at k1
      constructor
      · show 0 < ((s.thr.set i .unl).map wakeR).countP isRWait → _
        omega
      · show 0 < ((s.thr.set i .unl).map wakeR).countP isSWait → _
        omega
      · show _ → 0 < ((s.thr.set i .unl).map wakeR).countP isRWait → _
        omega
      · show _ → 0 < ((s.thr.set i .unl).map wakeR).countP isSWait → _
        omega
  | unl =>
    rw [runPc] at hs
    injection hs with hs
    refine inv_release _ h hp rfl rfl hs.symm ?_ ?_
    · subst hs; exact fun hr => hr
    · subst hs
      intro _ w
      wk Pc.idle, hp, w

theorem inv_spur {s s' : St} {i : Nat} {p : Pc} (h : Inv s) (hp : s.thr[i]? = some p)
    (hs : step s i .spur = some s') : Inv s' := by
  unfold step at hs
  rw [hp] at hs
  simp only at hs
  split at hs
  · rename_i v
    injection hs with hs
    subst hs
    refine inv_out (.sWoken v) h hp rfl rfl rfl rfl h.lost (fun _ hr => hr) ?_
    intro o _ w
    wk (Pc.sWoken v), hp, w
  · injection hs with hs
    subst hs
    refine inv_out .rWoken h hp rfl rfl rfl rfl h.lost (fun _ hr => hr) ?_
    intro o _ w
    wk Pc.rWoken, hp, w
  · cases hs

theorem inv_start {s : St} {i : Nat} (op : Op) (h : Inv s) (hp : s.thr[i]? = some .idle) :
    Inv (s.goto i (entry op)) := by
  have key : ∀ q, inside q = false → isRWait q = false → isSWait q = false → rAct q = false → sAct q = false →
      Inv (s.goto i q) := by
    intro q q1 q2 q3 q4 q5
    refine inv_out q h hp rfl q1 rfl rfl h.lost (fun _ hr => hr) ?_
    intro o _ w
    obtain ⟨c1, c2, c3, c4⟩ := counts q hp
    rw [q2] at c1
    rw [q3] at c3
    rw [q4] at c2
    rw [q5] at c4
    simp only [isRWait, rAct, isSWait, sAct, Bool.toNat_false, Nat.add_zero] at c1 c2 c3 c4
    obtain ⟨w1, w2, w3, w4⟩ := w
    constructor <;> simp only [St.goto, c1, c2, c3, c4] <;> assumption
  cases op <;> exact key _ rfl rfl rfl rfl rfl

theorem no_waiter {l : List Pc} {f : Pc → Bool} (h : ¬ l.any f = true) : l.countP f = 0 := by
  rw [List.countP_eq_zero]
  intro a ha hf
  exact h (List.any_eq_true.2 ⟨a, ha, hf⟩)

theorem inv_sigS {s s' : St} {i : Nat} {who : Option Nat} (h : Inv s) (hp : s.thr[i]? = some .sSig)
    (hs : signal s i isRWait wakeR who = some s') : Inv s' := by
  cases who with
  | none =>
    unfold signal at hs
    simp only at hs
    split at hs
    · cases hs
    · rename_i hn
      have hn := no_waiter hn
      injection hs with hs
      subst hs
      refine inv_in .unl h hp rfl rfl rfl rfl h.lost (fun hr => hr) ?_
      intro _ w
      wk Pc.unl, hp, w
  | some j =>
    unfold signal at hs
    simp only at hs
    cases hj : s.thr[j]? with
    | none => rw [hj] at hs; cases hs
    | some q =>
      rw [hj] at hs
      simp only at hs
      split at hs
      · rename_i hq
        have hq : q = .rWait := by cases q <;> first | rfl | cases hq
        subst hq
        injection hs with hs
        have hij : j ≠ i := by rintro rfl; rw [hp] at hj; cases hj
        have hp1 : (s.thr.set j .rWoken)[i]? = some .sSig := by
          rw [get_set _ _ _ _ (lt_of_get hj), if_neg hij]; exact hp
        obtain ⟨ho, hpc⟩ := opc_in h.mx hp rfl
        have r := h.rep
        have w := h.wk
        rw [hpc] at r w
        have e : opc ((s.thr.set j .rWoken).set i .unl) s.owner = some .unl := by
          rw [ho]; exact opc_set_in _ (lt_of_get hp1)
        subst hs
        refine ⟨mx_same (mx_same h.mx hj rfl) hp1 rfl, ?_, ?_, h.lost⟩
        · show Rep _ (opc ((s.thr.set j .rWoken).set i .unl) s.owner)
          rw [e]; exact r
        · show Wk _ (opc ((s.thr.set j .rWoken).set i .unl) s.owner)
          rw [e]
          have cc := counts Pc.rWoken hj
          obtain ⟨d1, d2, d3, d4⟩ := cc
          simp only [isRWait, rAct, isSWait, sAct, Bool.toNat_false, Bool.toNat_true, Nat.add_zero] at d1 d2 d3 d4
          show Wk { s with thr := (s.thr.set j .rWoken).set i .unl } _
          wk Pc.unl, hp1, w
      · cases hs

theorem inv_sigR {s s' : St} {i : Nat} {who : Option Nat} (h : Inv s) (hp : s.thr[i]? = some .rSig)
    (hs : signal s i isSWait wakeS who = some s') : Inv s' := by
  cases who with
  | none =>
    unfold signal at hs
    simp only at hs
    split at hs
    · cases hs
    · rename_i hn
      have hn := no_waiter hn
      injection hs with hs
      subst hs
      refine inv_in .unl h hp rfl rfl rfl rfl h.lost (fun hr => hr) ?_
      intro _ w
      wk Pc.unl, hp, w
  | some j =>
    unfold signal at hs
    simp only at hs
    cases hj : s.thr[j]? with
    | none => rw [hj] at hs; cases hs
    | some q =>
      rw [hj] at hs
      simp only at hs
      split at hs
      · rename_i hq
        have hq : ∃ v, q = .sWait v := by cases q <;> first | exact ⟨_, rfl⟩ | cases hq
        obtain ⟨v, rfl⟩ := hq
        injection hs with hs
        have hij : j ≠ i := by rintro rfl; rw [hp] at hj; cases hj
        have hp1 : (s.thr.set j (.sWoken v))[i]? = some .rSig := by
          rw [get_set _ _ _ _ (lt_of_get hj), if_neg hij]; exact hp
        obtain ⟨ho, hpc⟩ := opc_in h.mx hp rfl
        have r := h.rep
        have w := h.wk
        rw [hpc] at r w
        have e : opc ((s.thr.set j (.sWoken v)).set i .unl) s.owner = some .unl := by
          rw [ho]; exact opc_set_in _ (lt_of_get hp1)
        subst hs
        refine ⟨mx_same (mx_same h.mx hj rfl) hp1 rfl, ?_, ?_, h.lost⟩
        · show Rep _ (opc ((s.thr.set j (.sWoken v)).set i .unl) s.owner)
          rw [e]; exact r
        · show Wk _ (opc ((s.thr.set j (.sWoken v)).set i .unl) s.owner)
          rw [e]
          have cc := counts (Pc.sWoken v) hj
          obtain ⟨d1, d2, d3, d4⟩ := cc
          simp only [isRWait, rAct, isSWait, sAct, Bool.toNat_false, Bool.toNat_true, Nat.add_zero] at d1 d2 d3 d4
          show Wk { s with thr := (s.thr.set j (.sWoken v)).set i .unl } _
          wk Pc.unl, hp1, w
      · cases hs

theorem inv_step {s s' : St} {i : Nat} {a : Act} (h : Inv s) (hs : step s i a = some s') : Inv s' := by
  have hs0 := hs
  unfold step at hs
  cases hp : s.thr[i]? with
  | none => rw [hp] at hs; cases hs
  | some p =>
    rw [hp] at hs
    cases a with
    | start op =>
      simp only at hs
      split at hs
      · rename_i e
        subst e
        injection hs with hs
        subst hs
        exact inv_start op h hp
      · cases hs
    | run => exact inv_run h hp hs
    | sig who =>
      simp only at hs
      split at hs
      · rename_i e
        subst e
        exact inv_sigS h hp hs
      · split at hs
        · rename_i e
          subst e
          exact inv_sigR h hp hs
        · cases hs
    | spur => exact inv_spur h hp hs0

theorem openCap_pos (c : Int) : 0 < openCap c := by
  unfold openCap
  split <;> omega

theorem inv_init (c : Int) (n : Nat) : Inv (init c n) := by
  have hz : ∀ f : Pc → Bool, f .idle = false → (List.replicate n Pc.idle).countP f = 0 := by
    intro f hf
    rw [List.countP_eq_zero]
    intro a ha
    rw [List.eq_of_mem_replicate ha, hf]
    simp
  refine ⟨⟨?_, ?_⟩, ?_, ?_, ?_⟩
  · intro j p hp
    have : p = .idle := by
      have := List.mem_of_getElem? hp
      exact List.eq_of_mem_replicate this
    subst this
    simp [inside, init]
  · intro j hj
    cases hj
  · refine ⟨openCap_pos c, openCap_pos c, openCap_pos c, Nat.zero_le _, [], rfl, rfl, ?_, ?_⟩
    · show 0 = (0 + 0) % openCap c
      simp
    · intro k hk
      simp at hk
  · constructor
    · show 0 < (List.replicate n Pc.idle).countP isRWait → _
      rw [hz _ rfl]; omega
    · show 0 < (List.replicate n Pc.idle).countP isSWait → _
      rw [hz _ rfl]; omega
    · intro h; cases h
    · intro h; cases h
  · intro h; exact absurd rfl h

theorem inv_reach {c : Int} {n : Nat} {s : St} (h : Reach c n s) : Inv s := by
  induction h with
  | init => exact inv_init c n
  | step i a _ hs ih => exact inv_step ih hs

end Verif.Channels
