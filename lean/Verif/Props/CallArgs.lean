import Verif.Model.CallArgs

/-!
# C232, C233: arguments of a call
-/

namespace Verif.Props

open Verif.CallArgs

namespace Ca

/-- What a parameter is to receive: the argument with its position, or else the one with its name. -/
def given (as : List Arg) (i : Nat) (p : Param) : Option Exp :=
  match as[i]? with
  | some ⟨none, e⟩ => some e
  | _ => (as.find? fun a => a.name = some p.name).map (·.value)

/-- The values that the parameters are to have, in order: an argument is evaluated where the call stands, in `ρ`; a
default value is evaluated in the scope of the function, that is in `σ`, which has the variables outside of all functions
and the parameters before it. -/
def meant (ρ σ : Env) : List Param → List (Option Exp) → List (Option Int)
  | [], _ => []
  | p :: ps, some e :: as => eval ρ e :: meant ρ (set σ p.name (eval ρ e)) ps as
  | p :: ps, none :: as =>
    let v := match p.default with | some d => eval σ d | none => none
    v :: meant ρ (set σ p.name v) ps as
  | p :: ps, [] =>
    let v := match p.default with | some d => eval σ d | none => none
    v :: meant ρ (set σ p.name v) ps []

/-- The names in an expression. -/
def names : Exp → List Name
  | .num _ => []
  | .var x => [x]
  | .add a b => names a ++ names b

theorem eval_congr {ρ σ : Env} : ∀ {e : Exp}, (∀ x ∈ names e, ρ x = σ x) → eval ρ e = eval σ e
  | .num _, _ => rfl
  | .var x, h => h x (by simp [names])
  | .add a b, h => by
    simp only [eval, eval_congr (e := a) fun x hx => h x (List.mem_append_left _ hx),
      eval_congr (e := b) fun x hx => h x (List.mem_append_right _ hx)]

theorem set_self (ρ : Env) (x : Name) (v : Option Int) : set ρ x v x = v := if_pos rfl

theorem set_ne {ρ : Env} {x y : Name} {v : Option Int} (h : y ≠ x) : set ρ x v y = ρ y := if_neg h

theorem bindings_ne : ∀ {l : List (Param × Exp)} {ρ : Env} {x : Name}, x ∉ l.map (·.1.name) → bindings ρ l x = ρ x
  | [], _, _, _ => rfl
  | (p, e) :: r, ρ, x, h => by
    simp only [List.map_cons, List.mem_cons, not_or] at h
    rw [bindings, bindings_ne h.2, set_ne h.1]

/-- Of each argument: it has none of the names bound so far, nor its own. -/
def Clean : List Name → List (Param × Exp) → Prop
  | _, [] => True
  | bs, (p, e) :: r => (∀ x ∈ names e, x ∉ p.name :: bs) ∧ Clean (p.name :: bs) r

theorem bindings_eq : ∀ {l : List (Param × Exp)} {ρ ρ0 : Env} {bs : List Name}, (∀ x, x ∉ bs → ρ x = ρ0 x) → Clean bs l →
    (l.map (·.1.name)).Nodup → ∀ q ∈ l, bindings ρ l q.1.name = eval ρ0 q.2
  | (p, e) :: r, ρ, ρ0, bs, hρ, hc, hn, q, hq => by
    simp only [List.map_cons, List.nodup_cons] at hn
    have he : eval (set ρ p.name none) e = eval ρ0 e := eval_congr fun x hx => by
      have := hc.1 x hx
      simp only [List.mem_cons, not_or] at this
      rw [set_ne this.1, hρ x this.2]
    rw [bindings]
    rcases List.mem_cons.1 hq with rfl | hq
    · rw [bindings_ne hn.1, set_self, he]
    · refine bindings_eq (bs := p.name :: bs) (fun x hx => ?_) hc.2 hn.2 q hq
      simp only [List.mem_cons, not_or] at hx
      rw [set_ne hx.1, hρ x hx.2]

/-- `meant` for the parameters that are left out, with names that no default value mentions. -/
theorem meant_rest (ρ : Env) : ∀ (ps : List Param) (σ τ : Env), (∀ p ∈ ps, p.default.isSome) →
    (∀ p ∈ ps, ∀ d, p.default = some d → ∀ x ∈ names d, x ∉ ps.map (·.name) ∧ σ x = τ x) →
    meant ρ σ ps [] = ps.map (defaultValue τ)
  | [], _, _, _, _ => rfl
  | p :: ps, σ, τ, hd, h => by
    have hp := hd p (by simp)
    obtain ⟨d, hpd⟩ := Option.isSome_iff_exists.1 hp
    have he : eval σ d = eval τ d := eval_congr fun x hx => (h p (by simp) d hpd x hx).2
    rw [meant, List.map_cons, defaultValue]
    simp only [hpd, he]
    refine congrArg _ (meant_rest ρ ps _ τ (fun q hq => hd q (by simp [hq])) fun q hq d' hd' x hx => ?_)
    have := h q (by simp [hq]) d' hd' x hx
    simp only [List.map_cons, List.mem_cons, not_or] at this
    exact ⟨this.1.2, by rw [set_ne this.1.1]; exact this.2⟩

/-- `meant` for the parameters that are given. -/
theorem meant_given (ρ : Env) : ∀ (as : List Exp) (ps : List Param) (σ : Env), as.length ≤ ps.length →
    ∃ σ', meant ρ σ ps (as.map some) = as.map (eval ρ) ++ meant ρ σ' (ps.drop as.length) [] ∧
      (∀ x, x ∉ (ps.take as.length).map (·.name) → σ' x = σ x) ∧
      ((ps.map (·.name)).Nodup → ∀ q ∈ ps.zip as, σ' q.1.name = eval ρ q.2)
  | [], ps, σ, _ => ⟨σ, by simp, fun _ _ => rfl, fun _ q hq => by simp at hq⟩
  | e :: as, [], σ, h => by simp at h
  | e :: as, p :: ps, σ, h => by
    obtain ⟨σ', h1, h2, h3⟩ := meant_given ρ as ps (set σ p.name (eval ρ e)) (by simpa using h)
    refine ⟨σ', ?_, fun x hx => ?_, fun hn q hq => ?_⟩
    · rw [List.map_cons, meant, h1]
      rfl
    · simp only [List.length_cons, List.take_succ_cons, List.map_cons, List.mem_cons, not_or] at hx
      rw [h2 x hx.2, set_ne hx.1]
    · simp only [List.map_cons, List.nodup_cons] at hn
      simp only [List.zip_cons_cons, List.mem_cons] at hq
      rcases hq with rfl | hq
      · rw [h2 _ fun hm => hn.1 ?_, set_self]
        rw [List.map_take] at hm
        exact List.mem_of_mem_take hm
      · exact h3 hn.2 q hq

theorem zip_fst : ∀ {ps : List Param} {as : List Exp}, as.length ≤ ps.length → (ps.zip as).map (·.1) = ps.take as.length
  | _, [], _ => by simp
  | [], _ :: _, h => by simp at h
  | p :: ps, a :: as, h => by
    simp only [List.zip_cons_cons, List.map_cons, List.length_cons, List.take_succ_cons, zip_fst (ps := ps) (as := as) (by simpa using h)]

theorem zip_snd : ∀ {ps : List Param} {as : List Exp}, as.length ≤ ps.length → (ps.zip as).map (·.2) = as
  | _, [], _ => by simp
  | [], _ :: _, h => by simp at h
  | p :: ps, a :: as, h => by
    simp only [List.zip_cons_cons, List.map_cons, zip_snd (ps := ps) (as := as) (by simpa using h)]

/-- The content of a slot. -/
def slot (l : List (Option Exp)) (i : Nat) : Option Exp := (l[i]?).join

theorem slotOf_some {ps : List Param} {x : Name} {j : Nat} (h : slotOf ps x = some j) : ∃ p, ps[j]? = some p ∧ p.name = x := by
  rw [slotOf, List.findIdx?_eq_some_iff_getElem] at h
  obtain ⟨hj, h, -⟩ := h
  exact ⟨ps[j], List.getElem?_eq_getElem hj, by simpa using h⟩

theorem name_inj : ∀ {ps : List Param} {i j : Nat} {p q : Param}, (ps.map (·.name)).Nodup → ps[i]? = some p → ps[j]? = some q →
    p.name = q.name → i = j := fun {ps i j p q} hn hp hq h => by
  have hi : (ps.map (·.name))[i]? = some p.name := by rw [List.getElem?_map, hp]; rfl
  have hj : (ps.map (·.name))[j]? = some q.name := by rw [List.getElem?_map, hq]; rfl
  rw [h] at hi
  obtain ⟨hi1, hi2⟩ := List.getElem?_eq_some_iff.1 hi
  obtain ⟨hj1, hj2⟩ := List.getElem?_eq_some_iff.1 hj
  exact (List.getElem_inj hn).1 (hi2.trans hj2.symm)

theorem slotOf_of {ps : List Param} {j : Nat} {p : Param} (hn : (ps.map (·.name)).Nodup) (h : ps[j]? = some p) : slotOf ps p.name = some j := by
  cases hs : slotOf ps p.name with
  | none =>
    rw [slotOf, List.findIdx?_eq_none_iff] at hs
    have := hs p (List.mem_of_getElem? h)
    simp at this
  | some k =>
    obtain ⟨q, hq, hqn⟩ := slotOf_some hs
    rw [name_inj hn hq h hqn]

theorem slot_set {l : List (Option Exp)} {j i : Nat} {e : Exp} (hj : j < l.length) : slot (l.set j (some e)) i = if i = j then some e else slot l i := by
  simp only [slot, List.getElem?_set]
  by_cases h : i = j
  · subst h
    simp [hj]
  · rw [if_neg (Ne.symm h), if_neg h]

/-- The argument with the name of a parameter. -/
def named (as : List Arg) (p : Param) : Option Exp := (as.find? fun a => a.name = some p.name).map (·.value)

theorem place_spec {ps : List Param} (hn : (ps.map (·.name)).Nodup) : ∀ {as : List Arg} {l l' : List (Option Exp)}, (∀ a ∈ as, a.name.isSome) →
    l.length = ps.length → place ps l as = .ok l' →
    l'.length = ps.length ∧ ∀ (i : Nat) p, ps[i]? = some p → slot l' i = if (slot l i).isSome then slot l i else named as p
  | [], l, l', _, hl, h => by
    rw [place] at h
    cases h
    exact ⟨hl, fun i p _ => by cases hs : slot l i <;> simp [named]⟩
  | a :: as, l, l', ha, hl, h => by
    rw [place] at h
    obtain ⟨x, hx⟩ := Option.isSome_iff_exists.1 (ha a (by simp))
    simp only [hx, Option.getD_some] at h
    cases hs : slotOf ps x with
    | none => simp [hs] at h
    | some j =>
      simp only [hs] at h
      obtain ⟨q, hq, hqx⟩ := slotOf_some hs
      have hj : j < l.length := by rw [hl]; exact (List.getElem?_eq_some_iff.1 hq).1
      by_cases c : (l[j]?.join).isSome
      · rw [if_pos c] at h; cases h
      rw [if_neg c] at h
      obtain ⟨h1, h2⟩ := place_spec hn (fun b hb => ha b (by simp [hb])) (by rw [List.length_set, hl]) h
      refine ⟨h1, fun i p hp => ?_⟩
      rw [h2 i p hp, slot_set hj]
      by_cases e : i = j
      · subst e
        rw [hp] at hq
        cases hq
        rw [if_pos rfl, if_pos (show (some a.value).isSome = true from rfl), if_neg (show ¬ (slot l i).isSome from c), named, List.find?_cons_of_pos (by simp [hx, hqx])]
        rfl
      · have hne : ¬ a.name = some p.name := fun h' => by
          rw [hx] at h'
          exact e (name_inj hn hp hq (by rw [hqx]; exact (Option.some.inj h').symm))
        rw [if_neg e, named, named, List.find?_cons_of_neg (by simp [hne])]

theorem place_ok {ps : List Param} (hn : (ps.map (·.name)).Nodup) : ∀ {as : List Arg} {l : List (Option Exp)}, l.length = ps.length →
    (as.map (·.name)).Nodup → (∀ a ∈ as, ∃ (i : Nat) (p : Param), ps[i]? = some p ∧ a.name = some p.name ∧ slot l i = none) →
    ∃ l', place ps l as = .ok l'
  | [], l, _, _, _ => ⟨l, rfl⟩
  | a :: as, l, hl, hd, h => by
    obtain ⟨j, q, hq, hx, hs⟩ := h a (by simp)
    have hj : j < l.length := by rw [hl]; exact (List.getElem?_eq_some_iff.1 hq).1
    simp only [List.map_cons, List.nodup_cons] at hd
    rw [place]
    simp only [hx, Option.getD_some, slotOf_of hn hq]
    have hs1 : ¬ (l[j]?.join).isSome := by rw [show l[j]?.join = none from hs]; simp
    rw [if_neg hs1]
    refine place_ok hn (by rw [List.length_set, hl]) hd.2 fun b hb => ?_
    obtain ⟨i, p, hp, hb', hs'⟩ := h b (by simp [hb])
    refine ⟨i, p, hp, hb', ?_⟩
    have hne : i ≠ j := fun e => by
      subst e
      rw [hp] at hq
      cases hq
      exact hd.1 (by rw [hx, ← hb']; exact List.mem_map_of_mem hb)
    rw [slot_set hj, if_neg hne, hs']

theorem filled_ge : ∀ {l : List (Option Exp)} {i : Nat}, filled l ≤ i → slot l i = none
  | [], i, _ => by simp [slot]
  | s :: ss, i, h => by
    rw [filled] at h
    split at h
    · cases i with
      | zero => omega
      | succ i => exact filled_ge (l := ss) (by omega)
    · rename_i h0
      cases i with
      | zero =>
        split at h
        · omega
        · rename_i hs
          show s = none
          cases s with
          | none => rfl
          | some e => simp at hs
      | succ i => exact filled_ge (l := ss) (by omega)

theorem filled_le : ∀ {l : List (Option Exp)}, filled l ≤ l.length
  | [] => Nat.le_refl _
  | s :: ss => by
    have := filled_le (l := ss)
    rw [filled, List.length_cons]
    split
    · omega
    · split <;> omega

theorem filled_last : ∀ {l : List (Option Exp)}, 0 < filled l → (slot l (filled l - 1)).isSome
  | [], h => by simp [filled] at h
  | s :: ss, h => by
    rw [filled] at h ⊢
    split
    · rename_i h0
      have := filled_last (l := ss) h0
      have hk : filled ss + 1 - 1 = (filled ss - 1) + 1 := by omega
      rw [hk]
      exact this
    · rename_i h0
      rw [if_neg h0] at h
      split
      · rename_i hs
        exact hs
      · rename_i hs
        rw [if_neg hs] at h
        omega

/-- Parameters without a default come first. -/
def RequiredFirst (ps : List Param) : Prop := ps.Pairwise fun p q => p.default.isSome → q.default.isSome

theorem default_of_min : ∀ {ps : List Param} {i : Nat} {p : Param}, RequiredFirst ps → ps[i]? = some p → minArgs ps ≤ i → p.default.isSome
  | q :: ps, i, p, hr, h, hm => by
    obtain ⟨h1, h2⟩ := List.pairwise_cons.1 hr
    cases hq : q.default with
    | some d =>
      cases i with
      | zero => cases h; rw [hq]; rfl
      | succ i => exact h1 p (List.mem_of_getElem? (by simpa using h)) (by rw [hq]; rfl)
    | none =>
      have hmin : minArgs (q :: ps) = minArgs ps + 1 := by rw [minArgs, List.filter_cons_of_pos (by simp [hq])]; rfl
      cases i with
      | zero => omega
      | succ i => exact default_of_min (ps := ps) h2 (by simpa using h) (by omega)

/-- If fewer than the required ones are there, a required one is missing. -/
theorem required_of_min {ps : List Param} {n : Nat} (h : n < minArgs ps) : ∃ (i : Nat) (p : Param), ps[i]? = some p ∧ n ≤ i ∧ p.default = none := by
  have h1 : minArgs ps = ((ps.take n).filter (·.default.isNone)).length + ((ps.drop n).filter (·.default.isNone)).length := by
    rw [← List.length_append, ← List.filter_append, List.take_append_drop]; rfl
  have h2 : ((ps.take n).filter (·.default.isNone)).length ≤ n :=
    Nat.le_trans (List.length_filter_le _ _) (by rw [List.length_take]; omega)
  obtain ⟨p, hp⟩ := List.exists_mem_of_length_pos (show 0 < ((ps.drop n).filter (·.default.isNone)).length by omega)
  obtain ⟨hp1, hp2⟩ := List.mem_filter.1 hp
  obtain ⟨k, hk⟩ := List.mem_iff_getElem?.1 hp1
  rw [List.getElem?_drop] at hk
  exact ⟨n + k, p, hk, by omega, by simpa using hp2⟩

/-- The number of arguments before the first with a name. -/
def lead (as : List Arg) : Nat := (as.takeWhile (·.name.isNone)).length

theorem lead_lt : ∀ {as : List Arg} {i : Nat}, i < lead as → ∃ e, as[i]? = some ⟨none, e⟩
  | [], i, h => by simp [lead] at h
  | ⟨some x, e⟩ :: as, i, h => by simp [lead] at h
  | ⟨none, e⟩ :: as, i, h => by
    have hl : lead (⟨none, e⟩ :: as) = lead as + 1 := by simp [lead]
    cases i with
    | zero => exact ⟨e, rfl⟩
    | succ i =>
      obtain ⟨e', h'⟩ := lead_lt (as := as) (i := i) (by omega)
      exact ⟨e', by simpa using h'⟩

theorem lead_ge : ∀ {as : List Arg} {i : Nat} {a : Arg}, ordered as = true → lead as ≤ i → as[i]? = some a → a.name.isSome
  | ⟨some x, e⟩ :: as, i, a, ho, _, h => by
    have ha : as.all (·.name.isSome) = true := by simpa [ordered] using ho
    cases i with
    | zero => cases h; rfl
    | succ i => exact List.all_eq_true.1 ha a (List.mem_of_getElem? (by simpa using h))
  | ⟨none, e⟩ :: as, i, a, ho, hi, h => by
    have hl : lead (⟨none, e⟩ :: as) = lead as + 1 := by simp [lead]
    have ho' : ordered as = true := by simpa [ordered] using ho
    cases i with
    | zero => omega
    | succ i => exact lead_ge (as := as) (i := i) ho' (by omega) (by simpa using h)

theorem named_drop (p : Param) : ∀ {as : List Arg}, named as p = named (as.drop (lead as)) p
  | [] => rfl
  | ⟨some x, e⟩ :: as => by simp [lead]
  | ⟨none, e⟩ :: as => by
    have hl : lead (⟨none, e⟩ :: as) = lead as + 1 := by simp [lead]
    rw [hl, List.drop_succ_cons, ← named_drop p, named, named, List.find?_cons_of_neg (by simp)]

theorem lead_le (as : List Arg) : lead as ≤ as.length := (List.takeWhile_prefix _).length_le

theorem lead_plain : ∀ {as : List Arg}, (∀ a ∈ as, a.name = none) → lead as = as.length
  | [], _ => rfl
  | a :: as, h => by
    have ha : lead (a :: as) = lead as + 1 := by simp [lead, h a (by simp)]
    rw [ha, lead_plain fun b hb => h b (by simp [hb])]
    rfl

/-- The slots as they are before the named arguments. -/
def slots0 (ps : List Param) (as : List Arg) : List (Option Exp) :=
  ((as.takeWhile (·.name.isNone)).map fun a => some a.value).take ps.length ++ List.replicate (ps.length - lead as) none

theorem slots0_length (ps : List Param) (as : List Arg) : (slots0 ps as).length = ps.length := by
  have : (as.takeWhile (·.name.isNone)).length = lead as := rfl
  simp only [slots0, List.length_append, List.length_take, List.length_map, List.length_replicate, this]
  omega

theorem slots0_lt {ps : List Param} {as : List Arg} {i : Nat} {e : Exp} (hi : i < ps.length) (h : i < lead as) (ha : as[i]? = some ⟨none, e⟩) :
    slot (slots0 ps as) i = some e := by
  have h1 : (as.takeWhile (·.name.isNone))[i]? = some ⟨none, e⟩ := by
    obtain ⟨r, hr⟩ := List.takeWhile_prefix (l := as) (·.name.isNone)
    rw [← hr, List.getElem?_append_left h] at ha
    exact ha
  rw [slot, slots0, List.getElem?_append_left (by rw [List.length_take, List.length_map]; exact Nat.lt_min.2 ⟨hi, h⟩), List.getElem?_take_of_lt hi, List.getElem?_map, h1]
  rfl

theorem slots0_ge {ps : List Param} {as : List Arg} {i : Nat} (h : lead as ≤ i) : slot (slots0 ps as) i = none := by
  have : (as.takeWhile (·.name.isNone)).length = lead as := rfl
  rw [slot, slots0, List.getElem?_append_right (by rw [List.length_take, List.length_map]; omega), List.getElem?_replicate]
  split <;> rfl

theorem given_lt {as : List Arg} {i : Nat} {e : Exp} (p : Param) (h : as[i]? = some ⟨none, e⟩) : given as i p = some e := by
  simp only [given, h]

theorem given_ge {as : List Arg} {i : Nat} (p : Param) (h : ∀ a, as[i]? = some a → a.name.isSome) : given as i p = named as p := by
  rw [given]
  split
  · rename_i e he
    have := h _ he
    simp at this
  · rfl

theorem resolve_named {ps : List Param} {as : List Arg} (h : as.any (·.name.isSome) = true) : resolve ps as =
    if ordered as = true then
      match place ps (slots0 ps as) (as.drop (lead as)) with
      | .error e => .error e
      | .ok l => .ok ((List.zipWith fillGap ps l).take (max (filled l) (lead as)))
    else .error "E5033" := by
  rw [resolve, if_pos h]
  cases ordered as <;> rfl

theorem resolve_plain {ps : List Param} {as : List Arg} (h : as.any (·.name.isSome) = false) : resolve ps as = .ok (as.map fun a => some a.value) := by
  rw [resolve, h]
  rfl

theorem plain {as : List Arg} (h : as.any (·.name.isSome) = false) {a : Arg} (ha : a ∈ as) : a.name = none := by
  have := List.any_eq_false.1 h a ha
  simpa using this

/-- What `place` leaves in the slots. -/
theorem place_given {ps : List Param} {as : List Arg} {l : List (Option Exp)} (hn : (ps.map (·.name)).Nodup) (ho : ordered as = true)
    (h : place ps (slots0 ps as) (as.drop (lead as)) = .ok l) : l.length = ps.length ∧ ∀ (i : Nat) p, ps[i]? = some p → slot l i = given as i p := by
  obtain ⟨h1, h2⟩ := place_spec hn (fun a ha => by
    obtain ⟨k, hk⟩ := List.mem_iff_getElem?.1 ha
    rw [List.getElem?_drop] at hk
    exact lead_ge ho (by omega) hk) (slots0_length ps as) h
  refine ⟨h1, fun i p hp => ?_⟩
  have hi : i < ps.length := (List.getElem?_eq_some_iff.1 hp).1
  rw [h2 i p hp]
  by_cases c : i < lead as
  · obtain ⟨e, he⟩ := lead_lt c
    rw [slots0_lt hi c he, given_lt p he]
    rfl
  · rw [slots0_ge (by omega), given_ge p fun a ha => lead_ge ho (by omega) ha, named_drop p (as := as)]
    rfl

theorem resolve_spec {ps : List Param} {as : List Arg} {l : List (Option Exp)} (hn : (ps.map (·.name)).Nodup) (h : resolve ps as = .ok l)
    {i : Nat} {p : Param} (hp : ps[i]? = some p) :
    (i < l.length → slot l i = if (given as i p).isSome then given as i p else p.default) ∧ (l.length ≤ i → given as i p = none) := by
  have hi : i < ps.length := (List.getElem?_eq_some_iff.1 hp).1
  cases hx : as.any (·.name.isSome) with
  | false =>
    rw [resolve_plain hx] at h
    cases h
    rw [List.length_map]
    refine ⟨fun hl => ?_, fun hl => ?_⟩
    · have ha := List.getElem?_eq_getElem hl
      have hnm := plain hx (List.getElem_mem hl)
      have ha' : as[i]? = some ⟨none, as[i].value⟩ := by rw [ha, ← hnm]
      rw [given_lt p ha', slot, List.getElem?_map, ha']
      rfl
    · have hf : as.find? (fun a => a.name = some p.name) = none := List.find?_eq_none.2 fun a ha => by simp [plain hx ha]
      rw [given_ge p (fun a ha => by rw [List.getElem?_eq_none hl] at ha; cases ha), named, hf]
      rfl
  | true =>
    rw [resolve_named hx] at h
    by_cases ho : ordered as = true
    · rw [if_pos ho] at h
      cases hpl : place ps (slots0 ps as) (as.drop (lead as)) with
      | error e => simp [hpl] at h
      | ok l1 =>
        simp only [hpl] at h
        obtain ⟨h1, h2⟩ := place_given hn ho hpl
        cases h
        have hlen : (List.zipWith fillGap ps l1).length = ps.length := by rw [List.length_zipWith, h1, Nat.min_self]
        rw [List.length_take, hlen]
        refine ⟨fun hl => ?_, fun hl => ?_⟩
        · have hi1 : i < l1.length := by omega
          rw [← h2 i p hp, slot, List.getElem?_take_of_lt (by omega), List.getElem?_zipWith, hp, List.getElem?_eq_getElem hi1]
          show fillGap p l1[i] = _
          rw [fillGap, show slot l1 i = l1[i] by rw [slot, List.getElem?_eq_getElem hi1]; rfl]
        · rw [← h2 i p hp]
          exact filled_ge (by omega)
    · rw [if_neg ho] at h
      cases h

theorem resolve_length {ps : List Param} {as : List Arg} {l : List (Option Exp)} (hn : (ps.map (·.name)).Nodup) (h : resolve ps as = .ok l)
    (hx : as.any (·.name.isSome) = true) : l.length ≤ ps.length := by
  rw [resolve_named hx] at h
  by_cases ho : ordered as = true
  · rw [if_pos ho] at h
    cases hpl : place ps (slots0 ps as) (as.drop (lead as)) with
    | error e => simp [hpl] at h
    | ok l1 =>
      simp only [hpl] at h
      obtain ⟨h1, h2⟩ := place_given hn ho hpl
      cases h
      rw [List.length_take, List.length_zipWith, h1, Nat.min_self]
      omega
  · rw [if_neg ho] at h
    cases h

theorem filterMap_get : ∀ {l : List (Option Exp)} {i : Nat}, l.any (·.isNone) = false → (l.filterMap id)[i]? = slot l i
  | [], i, _ => by simp [slot]
  | none :: l, i, h => by simp at h
  | some e :: l, i, h => by
    have h' : l.any (·.isNone) = false := by simpa using h
    rw [List.filterMap_cons_some (f := id) (a := some e) (b := e) rfl]
    cases i with
    | zero => rfl
    | succ i => exact filterMap_get (l := l) h'

theorem filterMap_length : ∀ {l : List (Option Exp)}, l.any (·.isNone) = false → (l.filterMap id).length = l.length
  | [], _ => rfl
  | none :: l, h => by simp at h
  | some e :: l, h => by
    have h' : l.any (·.isNone) = false := by simpa using h
    rw [List.filterMap_cons_some (f := id) (a := some e) (b := e) rfl, List.length_cons, List.length_cons, filterMap_length h']

/-- After a gap there is an argument. -/
theorem resolve_last {ps : List Param} {as : List Arg} {l : List (Option Exp)} (hn : (ps.map (·.name)).Nodup) (h : resolve ps as = .ok l)
    {i : Nat} {p : Param} (hp : ps[i]? = some p) (hi : i < l.length) (hg : given as i p = none) :
    ∃ (j : Nat) (q : Param), ps[j]? = some q ∧ i < j ∧ (given as j q).isSome := by
  have hlead : ¬ i < lead as := fun c => by
    obtain ⟨e, he⟩ := lead_lt c
    rw [given_lt p he] at hg
    cases hg
  cases hx : as.any (·.name.isSome) with
  | false =>
    rw [resolve_plain hx] at h
    cases h
    rw [List.length_map] at hi
    have ha := List.getElem?_eq_getElem hi
    have ha' : as[i]? = some ⟨none, as[i].value⟩ := by rw [ha, ← plain hx (List.getElem_mem hi)]
    rw [given_lt p ha'] at hg
    cases hg
  | true =>
    rw [resolve_named hx] at h
    by_cases ho : ordered as = true
    · rw [if_pos ho] at h
      cases hpl : place ps (slots0 ps as) (as.drop (lead as)) with
      | error e => simp [hpl] at h
      | ok l1 =>
        simp only [hpl] at h
        obtain ⟨h1, h2⟩ := place_given hn ho hpl
        cases h
        rw [List.length_take] at hi
        have hif : i < filled l1 := by omega
        have hlast := filled_last (l := l1) (by omega)
        have hle := filled_le (l := l1)
        have hjp : filled l1 - 1 < ps.length := by omega
        have hq := List.getElem?_eq_getElem hjp
        rw [h2 _ _ hq] at hlast
        refine ⟨_, _, hq, ?_, hlast⟩
        refine Nat.lt_of_le_of_ne (by omega) fun e => ?_
        rw [← h2 _ _ hq, ← e, h2 i p hp, hg] at hlast
        cases hlast
    · rw [if_neg ho] at h
      cases h

end Ca

open Ca

/-! ### C232: where arguments and default values are evaluated -/

/-- C232, the claim: each parameter that is given has the value of its argument where the call stands, and each other
parameter has the value of its default in the scope of the function. `g` are the variables outside of functions. -/
def C232_statement : Prop :=
  ∀ (ps : List Param) (as : List Exp) (g ρ : Env), (ps.map (·.name)).Nodup → as.length ≤ ps.length →
    (∀ p ∈ ps.drop as.length, p.default.isSome) →
    (∀ x v, g x = some v → (ρ x).isSome) → (∀ e ∈ as, (eval ρ e).isSome) →
    emitted ρ ps as = meant ρ g ps (as.map some)

/-- C232: if all are given, it is so. Missing: defaults. -/
theorem C232_all_partial (ps : List Param) (as : List Exp) (g ρ : Env) (h : as.length = ps.length) :
    emitted ρ ps as = meant ρ g ps (as.map some) := by
  obtain ⟨σ, h1, -, -⟩ := meant_given ρ as ps g (by omega)
  rw [h1, List.drop_of_length_le (by omega), emitted, usesDefaults, List.drop_of_length_le (by omega)]
  rfl

/-- C232: with parameters left out it is so if no argument has the name of its own parameter or of one before it, and the
default values that are used have only names of parameters that are given, and names that mean the same for the caller and
outside of functions. Missing: other names; functions with an `&` parameter, see the next. -/
theorem C232_partial (ps : List Param) (as : List Exp) (g ρ : Env) (hn : (ps.map (·.name)).Nodup) (hl : as.length ≤ ps.length)
    (hm : anyMut ps = false) (hd : ∀ p ∈ ps.drop as.length, p.default.isSome) (hc : Clean [] (ps.zip as))
    (hg : ∀ p ∈ ps.drop as.length, ∀ d, p.default = some d → ∀ x ∈ names d,
      x ∈ (ps.take as.length).map (·.name) ∨ (x ∉ ps.map (·.name) ∧ ρ x = g x)) :
    emitted ρ ps as = meant ρ g ps (as.map some) := by
  by_cases he : as.length = ps.length
  · exact C232_all_partial ps as g ρ he
  obtain ⟨σ, h1, h2, h3⟩ := meant_given ρ as ps g hl
  have hu : usesDefaults ps as.length = true := by
    rw [usesDefaults, List.any_eq_true]
    have hp : 0 < (ps.drop as.length).length := by rw [List.length_drop]; omega
    exact ⟨_, List.getElem_mem hp, hd _ (List.getElem_mem hp)⟩
  have hz : (ps.zip as).map (·.1.name) = (ps.take as.length).map (·.name) := by
    rw [← zip_fst hl, List.map_map]
    rfl
  have hnz : ((ps.zip as).map (·.1.name)).Nodup := by
    rw [hz, List.map_take]
    exact hn.sublist (List.take_sublist _ _)
  have hb := bindings_eq (ρ := ρ) (ρ0 := ρ) (bs := []) (fun _ _ => rfl) hc hnz
  have hsplit : (ps.map (·.name)) = (ps.take as.length).map (·.name) ++ (ps.drop as.length).map (·.name) := by
    rw [← List.map_append, List.take_append_drop]
  rw [h1, emitted, hu, hm]
  have hcong : ∀ {a b c d : List (Option Int)}, a = c → b = d → a ++ b = c ++ d := fun h h' => by rw [h, h']
  refine hcong ?_ ?_
  · have hs : as.map (eval ρ) = (ps.zip as).map fun q => eval ρ q.2 := by
      have := congrArg (List.map (eval ρ)) (zip_snd hl)
      rw [List.map_map] at this
      exact this.symm
    rw [hs]
    exact List.map_congr_left fun q hq => hb q hq
  · refine (meant_rest ρ _ σ _ hd fun p hp d hpd x hx => ?_).symm
    rcases hg p hp d hpd x hx with hx | ⟨hx, hρ⟩
    · refine ⟨fun hx' => ?_, ?_⟩
      · rw [hsplit, List.nodup_append] at hn
        exact hn.2.2 x hx x hx' rfl
      · rw [← hz, List.mem_map] at hx
        obtain ⟨q, hq, rfl⟩ := hx
        rw [h3 hn q hq, hb q hq]
    · rw [hsplit, List.mem_append, not_or] at hx
      exact ⟨hx.2, by rw [h2 x hx.1, bindings_ne (by rw [hz]; exact hx.1), hρ]⟩

/-- C232: in a function with an `&` parameter it is so if the default values that are used have no names of parameters, and
only names that mean the same for the caller and outside of functions. -/
theorem C232_ref_partial (ps : List Param) (as : List Exp) (g ρ : Env) (hl : as.length ≤ ps.length)
    (hm : anyMut ps = true) (hd : ∀ p ∈ ps.drop as.length, p.default.isSome)
    (hg : ∀ p ∈ ps.drop as.length, ∀ d, p.default = some d → ∀ x ∈ names d, x ∉ ps.map (·.name) ∧ ρ x = g x) :
    emitted ρ ps as = meant ρ g ps (as.map some) := by
  obtain ⟨σ, h1, h2, h3⟩ := meant_given ρ as ps g hl
  have hsplit : (ps.map (·.name)) = (ps.take as.length).map (·.name) ++ (ps.drop as.length).map (·.name) := by
    rw [← List.map_append, List.take_append_drop]
  rw [h1, emitted, hm]
  simp only [Bool.not_true, Bool.and_false, Bool.false_eq_true, if_false]
  refine congrArg _ (meant_rest ρ _ σ _ hd fun p hp d hpd x hx => ?_).symm
  have := hg p hp d hpd x hx
  rw [hsplit, List.mem_append, not_or] at this
  exact ⟨this.1.2, by rw [h2 x this.1.1, this.2]⟩

/-- The variables `a` = 1 and `b` = 2 of a caller, and `k` = 7, which is 5 outside of functions. -/
def local3 : Env := fun x => if x = "a" then some 1 else if x = "b" then some 2 else if x = "k" then some 7 else none
def global1 : Env := fun x => if x = "k" then some 5 else none

/-- C232: `f(b, a)` with `do f(a int, b int, c int = 0)` gives both parameters the value of `b`: the second argument is
read where the name `a` is the first parameter already. -/
theorem C232_witness_swap : emitted local3 [⟨"a", none, false⟩, ⟨"b", none, false⟩, ⟨"c", some (.num 0), false⟩] [.var "b", .var "a"] = [some 2, some 2, some 0] ∧
    meant local3 global1 [⟨"a", none, false⟩, ⟨"b", none, false⟩, ⟨"c", some (.num 0), false⟩] [some (.var "b"), some (.var "a")] = [some 2, some 1, some 0] := by
  decide

/-- C232: `f(a + 1)` with `do f(a int, b int = 0)` reads a variable that has no value yet. -/
theorem C232_witness_self : emitted local3 [⟨"a", none, false⟩, ⟨"b", some (.num 0), false⟩] [.add (.var "a") (.num 1)] = [none, some 0] ∧
    meant local3 global1 [⟨"a", none, false⟩, ⟨"b", some (.num 0), false⟩] [some (.add (.var "a") (.num 1))] = [some 2, some 0] := by
  decide

/-- C232: `f(3)` with `do f(x int, y int = k)` takes the `k` of the caller. -/
theorem C232_witness_capture : emitted local3 [⟨"x", none, false⟩, ⟨"y", some (.var "k"), false⟩] [.num 3] = [some 3, some 7] ∧
    meant local3 global1 [⟨"x", none, false⟩, ⟨"y", some (.var "k"), false⟩] [some (.num 3)] = [some 3, some 5] := by
  decide

/-- C232: `f(3)` with `do f(x int, b int = 4, c int = b)` takes the `b` of the caller for the third. -/
theorem C232_witness_chain : emitted local3 [⟨"x", none, false⟩, ⟨"b", some (.num 4), false⟩, ⟨"c", some (.var "b"), false⟩] [.num 3] = [some 3, some 4, some 2] ∧
    meant local3 global1 [⟨"x", none, false⟩, ⟨"b", some (.num 4), false⟩, ⟨"c", some (.var "b"), false⟩] [some (.num 3)] = [some 3, some 4, some 4] := by
  decide

/-- C232: `f(b)` with `do f(&a int, c int = a)` takes the `a` of the caller for the second. -/
theorem C232_witness_ref : emitted local3 [⟨"a", none, true⟩, ⟨"c", some (.var "a"), false⟩] [.var "b"] = [some 2, some 1] ∧
    meant local3 global1 [⟨"a", none, true⟩, ⟨"c", some (.var "a"), false⟩] [some (.var "b")] = [some 2, some 2] := by
  decide

/-- C232: `f(1, z: 2)` with `do f(x int, y int = k, z int = 0)` is the call `f(1, k, 2)`, with the `k` of the caller. -/
theorem C232_witness_gap :
    check [⟨"x", none, false⟩, ⟨"y", some (.var "k"), false⟩, ⟨"z", some (.num 0), false⟩] [⟨none, .num 1⟩, ⟨some "z", .num 2⟩] = .args [.num 1, .var "k", .num 2] ∧
    emitted local3 [⟨"x", none, false⟩, ⟨"y", some (.var "k"), false⟩, ⟨"z", some (.num 0), false⟩] [.num 1, .var "k", .num 2] = [some 1, some 7, some 2] ∧
    meant local3 global1 [⟨"x", none, false⟩, ⟨"y", some (.var "k"), false⟩, ⟨"z", some (.num 0), false⟩] [some (.num 1), none, some (.num 2)] = [some 1, some 5, some 2] := by
  decide

theorem C232_fails : ¬ C232_statement := fun h => by
  have := h [⟨"a", none, false⟩, ⟨"b", none, false⟩, ⟨"c", some (.num 0), false⟩] [.var "b", .var "a"] global1 local3
    (by decide) (by decide) (by decide) (fun x v hx => by
      by_cases hk : x = "k"
      · subst hk; rfl
      · simp [global1, hk] at hx) (by decide)
  exact absurd (C232_witness_swap.1.symm.trans (this.trans C232_witness_swap.2)) (by decide)

example : Clean [] ([⟨"a", none, false⟩, ⟨"b", none, false⟩, ⟨"c", some (.add (.var "a") (.var "k")), false⟩].zip [Exp.var "k", .var "k"]) := by
  simp [Clean, names]

example : emitted global1 [⟨"a", none, false⟩, ⟨"c", some (.add (.var "a") (.var "k")), false⟩] [.num 1] = [some 1, some 6] := by decide

/-! ### C233: which parameter an argument reaches -/

/-- C233, the claim: if a parameter without a default is left out of a call the compiler says so. -/
def C233_statement : Prop :=
  ∀ (ps : List Param) (as : List Arg) (i : Nat) (p : Param), (ps.map (·.name)).Nodup → RequiredFirst ps → ps[i]? = some p →
    p.default = none → given as i p = none → ∃ c, check ps as = .error c

/-- C233: in a call that is accepted every parameter gets the argument that has its position or its name, or else its
default value, which exists. -/
theorem C233_sound_partial (ps : List Param) (as : List Arg) (l : List Exp) (hn : (ps.map (·.name)).Nodup) (hr : RequiredFirst ps)
    (h : check ps as = .args l) (i : Nat) (p : Param) (hp : ps[i]? = some p) :
    l.length ≤ ps.length ∧
    (i < l.length → l[i]? = if (given as i p).isSome then given as i p else p.default) ∧
    (l.length ≤ i → given as i p = none ∧ p.default.isSome) := by
  rw [check] at h
  cases hre : resolve ps as with
  | error e => simp [hre] at h
  | ok s =>
    simp only [hre] at h
    by_cases c : s.any (·.isNone) = true
    · rw [if_pos c] at h; cases h
    rw [if_neg c] at h
    have c' : s.any (·.isNone) = false := eq_false_of_ne_true c
    by_cases d : s.length < minArgs ps ∨ ps.length < s.length
    · rw [if_pos d] at h; cases h
    rw [if_neg d] at h
    cases h
    have hget : ∀ i : Nat, (s.filterMap id)[i]? = slot s i := fun i => filterMap_get c'
    have hlen : (s.filterMap id).length = s.length := filterMap_length c'
    obtain ⟨h1, h2⟩ := resolve_spec hn hre hp
    rw [hlen, hget]
    exact ⟨by omega, h1, fun hl => ⟨h2 hl, default_of_min hr hp (by omega)⟩⟩

/-- C233: a call is accepted if the arguments with a name come last, have names of different parameters that are not given by
position, there are not too many, and every parameter without a default is given. -/
theorem C233_complete_partial (ps : List Param) (as : List Arg) (hn : (ps.map (·.name)).Nodup) (ho : ordered as = true)
    (hl : lead as ≤ ps.length) (hd : ((as.drop (lead as)).map (·.name)).Nodup)
    (hk : ∀ a ∈ as.drop (lead as), ∃ (i : Nat) (p : Param), ps[i]? = some p ∧ a.name = some p.name ∧ lead as ≤ i)
    (hr : ∀ (i : Nat) (p : Param), ps[i]? = some p → p.default = none → (given as i p).isSome) :
    ∃ l, check ps as = .args l := by
  have hex : ∃ s, resolve ps as = .ok s ∧ s.length ≤ ps.length := by
    cases hx : as.any (·.name.isSome) with
    | false =>
      have hlead : lead as = as.length := by
        exact lead_plain fun a ha => plain hx ha
      exact ⟨_, resolve_plain hx, by rw [List.length_map]; omega⟩
    | true =>
      obtain ⟨l, hpl⟩ := place_ok hn (slots0_length ps as) hd fun a ha => by
        obtain ⟨i, p, h1, h2, h3⟩ := hk a ha
        exact ⟨i, p, h1, h2, slots0_ge h3⟩
      have hre := resolve_named (ps := ps) hx
      rw [if_pos ho] at hre
      simp only [hpl] at hre
      exact ⟨_, hre, resolve_length hn hre hx⟩
  obtain ⟨s, hs, hsl⟩ := hex
  rw [check]
  simp only [hs]
  have h1 : ¬ s.any (·.isNone) = true := fun h => by
    obtain ⟨a, ha, hnone⟩ := List.any_eq_true.1 h
    obtain ⟨k, hk'⟩ := List.mem_iff_getElem?.1 ha
    have hks : k < s.length := (List.getElem?_eq_some_iff.1 hk').1
    have hkp : k < ps.length := by omega
    have := (resolve_spec hn hs (List.getElem?_eq_getElem hkp)).1 hks
    cases a with
    | some e => simp at hnone
    | none =>
      have hsn : slot s k = none := by rw [slot, hk']; rfl
      rw [hsn] at this
      by_cases hg : (given as k ps[k]).isSome
      · rw [if_pos hg] at this
        rw [← this] at hg
        simp at hg
      · rw [if_neg hg] at this
        exact hg (hr k _ (List.getElem?_eq_getElem hkp) this.symm)
  have h2 : ¬ (s.length < minArgs ps ∨ ps.length < s.length) := by
    rintro (h | h)
    · obtain ⟨i, p, hp, hi, hpd⟩ := required_of_min h
      have := hr i p hp hpd
      rw [(resolve_spec hn hs hp).2 hi] at this
      simp at this
    · omega
  exact ⟨_, by rw [if_neg h1, if_neg h2]⟩

/-- C233: when a parameter without a default is left out the call is not accepted: it is an error or the compiler
crashes. Without names in the call it is an error. -/
theorem C233_missing_partial (ps : List Param) (as : List Arg) (i : Nat) (p : Param) (hn : (ps.map (·.name)).Nodup) (hr : RequiredFirst ps)
    (hp : ps[i]? = some p) (hd : p.default = none) (hg : given as i p = none) :
    (check ps as = .crash ∨ ∃ c, check ps as = .error c) ∧
    (as.any (·.name.isSome) = false → check ps as = .error "E5008") := by
  refine ⟨?_, fun hx => ?_⟩
  · cases h : check ps as with
    | error c => exact Or.inr ⟨c, rfl⟩
    | crash => exact Or.inl rfl
    | args l =>
      obtain ⟨h0, h1, h2⟩ := C233_sound_partial ps as l hn hr h i p hp
      by_cases c : i < l.length
      · have := h1 c
        rw [hg, hd, List.getElem?_eq_getElem c] at this
        cases this
      · have := (h2 (by omega)).2
        rw [hd] at this
        cases this
  · rw [check, resolve_plain hx]
    have hsome : ¬ (as.map fun a => some a.value).any (·.isNone) = true := by simp
    have hlen : as.length ≤ i := by
      refine Nat.le_of_not_lt fun hlt => ?_
      have ha := List.getElem?_eq_getElem hlt
      have ha' : as[i]? = some ⟨none, as[i].value⟩ := by rw [ha, ← plain hx (List.getElem_mem hlt)]
      rw [given_lt p ha'] at hg
      cases hg
    have hmin : i < minArgs ps := Nat.lt_of_not_le fun hle => by
      have := default_of_min hr hp hle
      rw [hd] at this
      cases this
    show (if _ then _ else _) = _
    rw [if_neg hsome, if_pos (Or.inl (by rw [List.length_map]; omega))]

/-- C233: when exactly the compiler crashes: the call has a name, is without the errors of names, and a parameter without a
default is left out before one that is given. -/
theorem C233_crash_partial (ps : List Param) (as : List Arg) (hn : (ps.map (·.name)).Nodup) :
    check ps as = .crash ↔ ∃ s, resolve ps as = .ok s ∧ ∃ (i j : Nat) (p q : Param), ps[i]? = some p ∧ ps[j]? = some q ∧ i < j ∧
      p.default = none ∧ given as i p = none ∧ (given as j q).isSome := by
  constructor
  · intro h
    rw [check] at h
    cases hre : resolve ps as with
    | error e => simp [hre] at h
    | ok s =>
      simp only [hre] at h
      by_cases c : s.any (·.isNone) = true
      · obtain ⟨a, ha, hnone⟩ := List.any_eq_true.1 c
        obtain ⟨k, hk⟩ := List.mem_iff_getElem?.1 ha
        have hks : k < s.length := (List.getElem?_eq_some_iff.1 hk).1
        have ha' : a = none := by simpa using hnone
        subst ha'
        have hsn : slot s k = none := by rw [slot, hk]; rfl
        have hx : as.any (·.name.isSome) = true := by
          cases hx : as.any (·.name.isSome) with
          | true => rfl
          | false =>
            rw [resolve_plain hx] at hre
            cases hre
            simp at c
        have hkp : k < ps.length := Nat.lt_of_lt_of_le hks (resolve_length hn hre hx)
        have hp := List.getElem?_eq_getElem hkp
        have hsp := (resolve_spec hn hre hp).1 hks
        rw [hsn] at hsp
        have hg : given as k ps[k] = none := by
          cases hg : given as k ps[k] with
          | none => rfl
          | some e => simp [hg] at hsp
        rw [hg] at hsp
        obtain ⟨j, q, hq, hj, hgj⟩ := resolve_last hn hre hp hks hg
        exact ⟨s, rfl, k, j, _, q, hp, hq, hj, hsp.symm, hg, hgj⟩
      · rw [if_neg c] at h
        by_cases d : s.length < minArgs ps ∨ ps.length < s.length
        · rw [if_pos d] at h; cases h
        · rw [if_neg d] at h; cases h
  · rintro ⟨s, hre, i, j, p, q, hp, hq, hij, hd, hg, hgj⟩
    have hjs : j < s.length := Nat.lt_of_not_le fun hle => by
      rw [(resolve_spec hn hre hq).2 hle] at hgj
      cases hgj
    have his : i < s.length := by omega
    have hsp := (resolve_spec hn hre hp).1 his
    rw [hg, hd] at hsp
    have hsi : s[i] = none := by
      rw [slot, List.getElem?_eq_getElem his] at hsp
      exact hsp
    rw [check]
    simp only [hre]
    rw [if_pos (List.any_eq_true.2 ⟨_, List.getElem_mem his, by rw [hsi]; rfl⟩)]

/-- C233: `f(b: 1)` with `do f(a int, b int)`. -/
theorem C233_witness : check [⟨"a", none, false⟩, ⟨"b", none, false⟩] [⟨some "b", .num 1⟩] = .crash ∧
    given [⟨some "b", .num 1⟩] 0 ⟨"a", none, false⟩ = none := by
  decide

theorem C233_fails : ¬ C233_statement := fun h => by
  obtain ⟨c, hc⟩ := h [⟨"a", none, false⟩, ⟨"b", none, false⟩] [⟨some "b", .num 1⟩] 0 ⟨"a", none, false⟩ (by decide)
    (by simp [RequiredFirst]) rfl rfl C233_witness.2
  rw [C233_witness.1] at hc
  cases hc

example : check [⟨"a", none, false⟩, ⟨"b", some (.num 5), false⟩, ⟨"c", some (.num 6), false⟩, ⟨"d", some (.num 7), false⟩] [⟨none, .num 1⟩, ⟨some "c", .num 2⟩] =
    .args [.num 1, .num 5, .num 2] := by decide
example : check [⟨"a", none, false⟩, ⟨"b", none, false⟩] [⟨some "b", .num 1⟩, ⟨some "a", .num 2⟩] = .args [.num 2, .num 1] := by decide
example : check [⟨"a", none, false⟩] [⟨none, .num 1⟩, ⟨some "a", .num 2⟩] = .error "E5032" := by decide
example : check [⟨"a", none, false⟩] [⟨some "x", .num 2⟩] = .error "E5031" := by decide
example : check [⟨"a", none, false⟩, ⟨"b", none, false⟩] [⟨some "a", .num 1⟩, ⟨none, .num 2⟩] = .error "E5033" := by decide
example : check [⟨"a", none, false⟩, ⟨"b", none, false⟩] [⟨some "a", .num 1⟩] = .error "E5008" := by decide

end Verif.Props
