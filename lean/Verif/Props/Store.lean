import Verif.Model.Store
import Mathlib.Data.List.Nodup
import Mathlib.Data.List.Basic

/-!
# Independence of variables, constants, and the checks on writes
-/

namespace Verif.Props
open Verif.Store

namespace Sto

/-! ## Blocks of a value -/

/-- The blocks a value is stored in. -/
def foot (h : Heap) : Ty → V → List Nat
  | .pair a b, .pair u w => foot h a u ++ foot h b w
  | .arr e, .hdl b l => b :: ((buf h b).take l).flatMap (fun v => foot h e v)
  | _, _ => []

theorem buf_append_left (h ext : Heap) {b : Nat} (hb : b < h.length) : buf (h ++ ext) b = buf h b := by
  unfold buf
  rw [List.getD_eq_getElem?_getD, List.getD_eq_getElem?_getD, List.getElem?_append_left hb]

theorem buf_append_last (h : Heap) (vs : List V) : buf (h ++ [vs]) h.length = vs := by
  unfold buf
  rw [List.getD_eq_getElem?_getD]
  simp

theorem buf_set_ne (h : Heap) {b c : Nat} (vs : List V) (hne : b ≠ c) : buf (h.set b vs) c = buf h c := by
  unfold buf
  rw [List.getD_eq_getElem?_getD, List.getD_eq_getElem?_getD, List.getElem?_set_ne hne]

theorem buf_set_eq (h : Heap) {b : Nat} (vs : List V) (hb : b < h.length) : buf (h.set b vs) b = vs := by
  unfold buf
  rw [List.getD_eq_getElem?_getD, List.getElem?_set_self hb]
  rfl

theorem foot_local (h h' : Heap) : ∀ (t : Ty) (v : V), (∀ b ∈ foot h t v, buf h' b = buf h b) →
    foot h' t v = foot h t v ∧ deep h' t v = deep h t v := by
  intro t
  induction t with
  | int => intro v _; cases v <;> exact ⟨rfl, rfl⟩
  | unit => intro v _; cases v <;> exact ⟨rfl, rfl⟩
  | pair a b iha ihb =>
    intro v hv
    cases v with
    | pair u w =>
      have h1 := iha u (fun c hc => hv c (List.mem_append_left _ hc))
      have h2 := ihb w (fun c hc => hv c (List.mem_append_right _ hc))
      simp only [foot, deep, h1.1, h1.2, h2.1, h2.2, and_self]
    | int n => exact ⟨rfl, rfl⟩
    | unit => exact ⟨rfl, rfl⟩
    | hdl b l => exact ⟨rfl, rfl⟩
  | arr e ih =>
    intro v hv
    cases v with
    | hdl b l =>
      have hb : buf h' b = buf h b := hv b (by simp [foot])
      have he : ∀ w ∈ (buf h b).take l, foot h' e w = foot h e w ∧ deep h' e w = deep h e w := by
        intro w hw
        apply ih
        intro c hc
        apply hv
        simp only [foot, List.mem_cons, List.mem_flatMap]
        exact Or.inr ⟨w, hw, hc⟩
      constructor
      · simp only [foot, hb]
        congr 1
        exact List.flatMap_congr (fun w hw => (he w hw).1)
      · simp only [deep, hb]
        congr 1
        exact List.map_congr_left (fun w hw => (he w hw).2)
    | int n => exact ⟨rfl, rfl⟩
    | unit => exact ⟨rfl, rfl⟩
    | pair u w => exact ⟨rfl, rfl⟩

/-- The heap with blocks added. -/
def Ext (h h' : Heap) : Prop := ∃ l, h' = h ++ l

theorem Ext.refl (h : Heap) : Ext h h := ⟨[], by simp⟩

theorem Ext.trans {a b c : Heap} (h1 : Ext a b) (h2 : Ext b c) : Ext a c := by
  obtain ⟨l, rfl⟩ := h1
  obtain ⟨m, rfl⟩ := h2
  exact ⟨l ++ m, by simp⟩

theorem Ext.le {a b : Heap} (h : Ext a b) : a.length ≤ b.length := by
  obtain ⟨l, rfl⟩ := h
  simp

theorem Ext.buf {a b : Heap} (h : Ext a b) {c : Nat} (hc : c < a.length) : buf b c = buf a c := by
  obtain ⟨l, rfl⟩ := h
  exact buf_append_left _ _ hc

theorem Ext.last (h : Heap) (x : List V) : Ext h (h ++ [x]) := ⟨[x], rfl⟩

theorem foot_ext {h h' : Heap} (he : Ext h h') {t : Ty} {v : V} (hb : ∀ b ∈ foot h t v, b < h.length) :
    foot h' t v = foot h t v ∧ deep h' t v = deep h t v :=
  foot_local h h' t v (fun b hb' => he.buf (hb b hb'))

/-- New blocks, each used once. -/
def New (h h' : Heap) (bs : List Nat) : Prop := bs.Nodup ∧ ∀ b ∈ bs, h.length ≤ b ∧ b < h'.length

theorem New.nil (h h' : Heap) : New h h' [] := ⟨List.nodup_nil, fun _ hb => absurd hb (by simp)⟩

theorem New.append {h h1 h2 : Heap} {as bs : List Nat} (e1 : Ext h h1) (e2 : Ext h1 h2)
    (ha : New h h1 as) (hb : New h1 h2 bs) : New h h2 (as ++ bs) := by
  refine ⟨List.nodup_append.2 ⟨ha.1, hb.1, ?_⟩, ?_⟩
  · intro a ha' b hb' hab
    have := (ha.2 a ha').2
    have := (hb.2 b hb').1
    omega
  · intro b hb'
    rcases List.mem_append.1 hb' with h3 | h3
    · have := ha.2 b h3
      have := e2.le
      omega
    · have := hb.2 b h3
      have := e1.le
      omega

theorem New.last {h h1 : Heap} {bs : List Nat} (e1 : Ext h h1) (hb : New h h1 bs) (x : List V) :
    New h (h1 ++ [x]) (h1.length :: bs) := by
  refine ⟨List.nodup_cons.2 ⟨fun hc => ?_, hb.1⟩, ?_⟩
  · have := (hb.2 _ hc).2
    omega
  · intro b hb'
    have := e1.le
    rcases List.mem_cons.1 hb' with rfl | h3
    · simp; omega
    · have := hb.2 b h3
      simp; omega

theorem fresh_take (vs : List V) : (fresh vs).take vs.length = vs := by
  unfold fresh
  by_cases h : vs = []
  · simp [h]
  · rw [if_neg h]
    simp

theorem copyL_spec {t : Ty} {f : Heap → V → V × Heap}
    (hf : ∀ h v, Ext h (f h v).2 ∧ New h (f h v).2 (foot (f h v).2 t (f h v).1)) :
    ∀ (vs : List V) (h : Heap), Ext h (copyL f h vs).2 ∧
      New h (copyL f h vs).2 ((copyL f h vs).1.flatMap (fun v => foot (copyL f h vs).2 t v)) ∧
      (copyL f h vs).1.length = vs.length := by
  intro vs
  induction vs with
  | nil => intro h; exact ⟨Ext.refl _, New.nil _ _, rfl⟩
  | cons v vs ih =>
    intro h
    have h1 := hf h v
    have h2 := ih (f h v).2
    refine ⟨h1.1.trans h2.1, ?_, by simp [copyL, h2.2.2]⟩
    simp only [copyL, List.flatMap_cons]
    rw [(foot_ext h2.1 (fun b hb => (h1.2.2 b hb).2)).1]
    exact New.append h1.1 h2.1 h1.2 h2.2.1

theorem copy_spec : ∀ (t : Ty) (h : Heap) (v : V),
    Ext h (copy t h v).2 ∧ New h (copy t h v).2 (foot (copy t h v).2 t (copy t h v).1) := by
  intro t
  induction t with
  | int => intro h v; cases v <;> exact ⟨Ext.refl _, New.nil _ _⟩
  | unit => intro h v; cases v <;> exact ⟨Ext.refl _, New.nil _ _⟩
  | pair a b iha ihb =>
    intro h v
    cases v with
    | pair u w =>
      have h1 := iha h u
      have h2 := ihb (copy a h u).2 w
      refine ⟨h1.1.trans h2.1, ?_⟩
      simp only [copy, foot]
      rw [(foot_ext h2.1 (fun b hb => (h1.2.2 b hb).2)).1]
      exact New.append h1.1 h2.1 h1.2 h2.2
    | int n => exact ⟨Ext.refl _, New.nil _ _⟩
    | unit => exact ⟨Ext.refl _, New.nil _ _⟩
    | hdl b l => exact ⟨Ext.refl _, New.nil _ _⟩
  | arr e ih =>
    intro h v
    cases v with
    | hdl b l =>
      obtain ⟨h1, h2, h3⟩ := copyL_spec (t := e) (f := fun h v => copy e h v) (fun h v => ih h v)
        ((buf h b).take l) h
      refine ⟨h1.trans (Ext.last _ _), ?_⟩
      simp only [copy, foot]
      rw [buf_append_last, fresh_take]
      have : (copyL (fun h v => copy e h v) h ((buf h b).take l)).1.flatMap
          (fun v => foot ((copyL (fun h v => copy e h v) h ((buf h b).take l)).2 ++
            [fresh (copyL (fun h v => copy e h v) h ((buf h b).take l)).1]) e v) =
          (copyL (fun h v => copy e h v) h ((buf h b).take l)).1.flatMap
          (fun v => foot (copyL (fun h v => copy e h v) h ((buf h b).take l)).2 e v) := by
        apply List.flatMap_congr
        intro w hw
        refine (foot_ext (Ext.last _ _) (fun c hc => ?_)).1
        exact (h2.2 c (List.mem_flatMap.2 ⟨w, hw, hc⟩)).2
      rw [this]
      exact New.last h1 h2 _
    | int n => exact ⟨Ext.refl _, New.nil _ _⟩
    | unit => exact ⟨Ext.refl _, New.nil _ _⟩
    | pair u w => exact ⟨Ext.refl _, New.nil _ _⟩

theorem copyL_deep {t : Ty} {f : Heap → V → V × Heap}
    (hf : ∀ h v, Ext h (f h v).2 ∧ New h (f h v).2 (foot (f h v).2 t (f h v).1))
    (hd : ∀ h v, (∀ b ∈ foot h t v, b < h.length) → deep (f h v).2 t (f h v).1 = deep h t v) :
    ∀ (vs : List V) (h : Heap), (∀ v ∈ vs, ∀ b ∈ foot h t v, b < h.length) →
      (copyL f h vs).1.map (fun v => deep (copyL f h vs).2 t v) = vs.map (fun v => deep h t v) := by
  intro vs
  induction vs with
  | nil => intro h _; rfl
  | cons v vs ih =>
    intro h hb
    have h1 := hf h v
    have h2 := copyL_spec hf vs (f h v).2
    have hv := hb v (by simp)
    have h3 := ih (f h v).2 (fun w hw c hc => by
      rw [(foot_ext h1.1 (hb w (by simp [hw]))).1] at hc
      exact Nat.lt_of_lt_of_le (hb w (by simp [hw]) c hc) h1.1.le)
    simp only [copyL, List.map_cons]
    rw [(foot_ext h2.1 (fun b hb => (h1.2.2 b hb).2)).2, hd h v hv, h3]
    congr 1
    apply List.map_congr_left
    intro w hw
    exact (foot_ext h1.1 (hb w (by simp [hw]))).2

theorem copy_deep : ∀ (t : Ty) (h : Heap) (v : V), (∀ b ∈ foot h t v, b < h.length) →
    deep (copy t h v).2 t (copy t h v).1 = deep h t v := by
  intro t
  induction t with
  | int => intro h v _; cases v <;> rfl
  | unit => intro h v _; cases v <;> rfl
  | pair a b iha ihb =>
    intro h v hv
    cases v with
    | pair u w =>
      have hu : ∀ c ∈ foot h a u, c < h.length := fun c hc => hv c (List.mem_append_left _ hc)
      have hw : ∀ c ∈ foot h b w, c < h.length := fun c hc => hv c (List.mem_append_right _ hc)
      have h1 := copy_spec a h u
      have h2 := copy_spec b (copy a h u).2 w
      simp only [copy, deep]
      rw [(foot_ext h2.1 (fun b hb => (h1.2.2 b hb).2)).2, iha h u hu, ihb _ w, (foot_ext h1.1 hw).2]
      intro c hc
      rw [(foot_ext h1.1 hw).1] at hc
      exact Nat.lt_of_lt_of_le (hw c hc) h1.1.le
    | int n => rfl
    | unit => rfl
    | hdl b l => rfl
  | arr e ih =>
    intro h v hv
    cases v with
    | hdl b l =>
      have hel : ∀ w ∈ (buf h b).take l, ∀ c ∈ foot h e w, c < h.length := by
        intro w hw c hc
        apply hv
        simp only [foot, List.mem_cons, List.mem_flatMap]
        exact Or.inr ⟨w, hw, hc⟩
      obtain ⟨h1, h2, h3⟩ := copyL_spec (t := e) (f := fun h v => copy e h v) (fun h v => copy_spec e h v)
        ((buf h b).take l) h
      have h4 := copyL_deep (t := e) (f := fun h v => copy e h v) (fun h v => copy_spec e h v)
        (fun h v => ih h v) ((buf h b).take l) h hel
      simp only [copy, deep]
      rw [buf_append_last, fresh_take, ← h4]
      congr 1
      apply List.map_congr_left
      intro w hw
      refine (foot_ext (Ext.last _ _) (fun c hc => ?_)).2
      exact (h2.2 c (List.mem_flatMap.2 ⟨w, hw, hc⟩)).2
    | int n => rfl
    | unit => rfl
    | pair u w => rfl

/-! ## Changes in place -/

/-- What a change of a value may do: blocks below `n` that are not the value's stay as they are, the blocks of
the result were the value's or are at `n` or above, and each is used once. -/
def Chg (n : Nat) (h h' : Heap) (old new : List Nat) : Prop :=
  (∀ b, b < n → b ∉ old → buf h' b = buf h b) ∧ new.Nodup ∧ (∀ b ∈ new, b ∈ old ∨ n ≤ b) ∧
  (∀ b ∈ new, b < h'.length) ∧ h.length ≤ h'.length

theorem modV_spec {n : Nat} {h : Heap} {upd : Ty → V → Option (V × Heap)} (hn : n ≤ h.length)
    (hupd : ∀ t v v' h', (foot h t v).Nodup → (∀ b ∈ foot h t v, b < n) → upd t v = some (v', h') →
      Chg n h h' (foot h t v) (foot h' t v')) :
    ∀ (ss : List Sel) (t : Ty) (v v' : V) (h' : Heap), (foot h t v).Nodup → (∀ b ∈ foot h t v, b < n) →
      modV upd h t v ss = some (v', h') → Chg n h h' (foot h t v) (foot h' t v') := by
  intro ss
  induction ss with
  | nil =>
    intro t v v' h' hd hb hm
    have : modV upd h t v [] = upd t v := by cases t <;> cases v <;> rfl
    rw [this] at hm
    exact hupd t v v' h' hd hb hm
  | cons s r ih =>
    intro t v v' h' hd hb hm
    cases t with
    | int => cases v <;> cases s <;> simp [modV] at hm
    | unit => cases v <;> cases s <;> simp [modV] at hm
    | pair a b =>
      cases v with
      | int n => cases s <;> simp [modV] at hm
      | unit => cases s <;> simp [modV] at hm
      | hdl c l => cases s <;> simp [modV] at hm
      | pair u w =>
        simp only [foot] at hd hb
        obtain ⟨du, dw, dd⟩ := List.nodup_append.1 hd
        have bu : ∀ c ∈ foot h a u, c < n := fun c hc => hb c (List.mem_append_left _ hc)
        have bw : ∀ c ∈ foot h b w, c < n := fun c hc => hb c (List.mem_append_right _ hc)
        cases s with
        | idx i => simp [modV] at hm
        | fst =>
          simp only [modV] at hm
          cases hr : modV upd h a u r with
          | none => rw [hr] at hm; simp at hm
          | some q =>
            obtain ⟨u', hu'⟩ := q
            rw [hr] at hm
            simp only [Option.some.injEq, Prod.mk.injEq] at hm
            obtain ⟨rfl, rfl⟩ := hm
            obtain ⟨c1, c2, c3, c4, c5⟩ := ih a u u' hu' du bu hr
            have hw : foot hu' b w = foot h b w := (foot_local h hu' b w (fun c hc =>
              c1 c (bw c hc) (fun hc' => dd c hc' c hc rfl))).1
            simp only [foot, hw]
            refine ⟨fun c hc hnc => c1 c hc (fun hx => hnc (List.mem_append_left _ hx)), ?_, ?_, ?_, c5⟩
            · refine List.nodup_append.2 ⟨c2, dw, fun x hx y hy hxy => ?_⟩
              subst hxy
              rcases c3 x hx with h1 | h1
              · exact dd x h1 x hy rfl
              · have := bw x hy
                omega
            · intro c hc
              rcases List.mem_append.1 hc with h1 | h1
              · rcases c3 c h1 with h2 | h2
                · exact Or.inl (List.mem_append_left _ h2)
                · exact Or.inr h2
              · exact Or.inl (List.mem_append_right _ h1)
            · intro c hc
              rcases List.mem_append.1 hc with h1 | h1
              · exact c4 c h1
              · have := bw c h1
                omega
        | snd =>
          simp only [modV] at hm
          cases hr : modV upd h b w r with
          | none => rw [hr] at hm; simp at hm
          | some q =>
            obtain ⟨w', hu'⟩ := q
            rw [hr] at hm
            simp only [Option.some.injEq, Prod.mk.injEq] at hm
            obtain ⟨rfl, rfl⟩ := hm
            obtain ⟨c1, c2, c3, c4, c5⟩ := ih b w w' hu' dw bw hr
            have hw : foot hu' a u = foot h a u := (foot_local h hu' a u (fun c hc =>
              c1 c (bu c hc) (fun hc' => dd c hc c hc' rfl))).1
            simp only [foot, hw]
            refine ⟨fun c hc hnc => c1 c hc (fun hx => hnc (List.mem_append_right _ hx)), ?_, ?_, ?_, c5⟩
            · refine List.nodup_append.2 ⟨du, c2, fun x hx y hy hxy => ?_⟩
              subst hxy
              rcases c3 x hy with h1 | h1
              · exact dd x hx x h1 rfl
              · have := bu x hx
                omega
            · intro c hc
              rcases List.mem_append.1 hc with h1 | h1
              · exact Or.inl (List.mem_append_left _ h1)
              · rcases c3 c h1 with h2 | h2
                · exact Or.inl (List.mem_append_right _ h2)
                · exact Or.inr h2
            · intro c hc
              rcases List.mem_append.1 hc with h1 | h1
              · have := bu c h1
                omega
              · exact c4 c h1
    | arr e =>
      cases v with
      | int n => cases s <;> simp [modV] at hm
      | unit => cases s <;> simp [modV] at hm
      | pair u w => cases s <;> simp [modV] at hm
      | hdl b l =>
        cases s with
        | fst => simp [modV] at hm
        | snd => simp [modV] at hm
        | idx i =>
          simp only [modV] at hm
          by_cases hil : i < l
          · rw [if_pos hil] at hm
            cases hg : (buf h b)[i]? with
            | none => simp [hg] at hm
            | some x =>
              simp only [hg] at hm
              cases hr : modV upd h e x r with
              | none => simp [hr] at hm
              | some q =>
                obtain ⟨x', h1⟩ := q
                simp only [hr, Option.some.injEq, Prod.mk.injEq] at hm
                obtain ⟨rfl, rfl⟩ := hm
                -- split the block at `i`
                have hi : i < (buf h b).length := by
                  rw [List.getElem?_eq_some_iff] at hg
                  exact hg.1
                have hxe : (buf h b)[i] = x := by
                  rw [List.getElem?_eq_some_iff] at hg
                  exact hg.2
                have hsplit : (buf h b).take l = (buf h b).take i ++ x :: ((buf h b).take l).drop (i + 1) := by
                  have hlt : i < ((buf h b).take l).length := by
                    rw [List.length_take]; omega
                  have h2 := List.take_append_drop i ((buf h b).take l)
                  rw [List.take_take, Nat.min_eq_left (by omega), List.drop_eq_getElem_cons hlt,
                    List.getElem_take, hxe] at h2
                  exact h2.symm
                generalize hA : (buf h b).take i = A at hsplit
                generalize hB : ((buf h b).take l).drop (i + 1) = B at hsplit
                have hAl : A.length = i := by
                  rw [← hA, List.length_take]; omega
                simp only [foot, hsplit, List.flatMap_append, List.flatMap_cons] at hd hb ⊢
                obtain ⟨hbn, hd2⟩ := List.nodup_cons.1 hd
                obtain ⟨dA, dxB, dAxB⟩ := List.nodup_append.1 hd2
                obtain ⟨dx, dB, dxB'⟩ := List.nodup_append.1 dxB
                have bb : b < n := hb b (by simp)
                have bx : ∀ c ∈ foot h e x, c < n := fun c hc => hb c (by simp [hc])
                obtain ⟨c1, c2, c3, c4, c5⟩ := ih e x x' h1 dx bx hr
                have hbx : b ∉ foot h e x := fun hc => hbn (by simp [hc])
                have hbuf : buf h1 b = buf h b := c1 b bb hbx
                have hnew : buf (h1.set b ((buf h1 b).set i x')) b = (buf h b).set i x' := by
                  rw [buf_set_eq _ _ (by omega), hbuf]
                have htake : ((buf h b).set i x').take l = A ++ x' :: B := by
                  rw [List.take_set, hsplit, List.set_append_right _ _ (by omega), hAl]
                  simp
                have hbx' : b ∉ foot h1 e x' := by
                  intro hc
                  rcases c3 b hc with h2 | h2
                  · exact hbx h2
                  · omega
                generalize hH : h1.set b ((buf h1 b).set i x') = H at hnew ⊢
                have hHne : ∀ c, c ≠ b → buf H c = buf h1 c := by
                  intro c hc
                  rw [← hH]
                  exact buf_set_ne _ _ (fun h2 => hc h2.symm)
                have hHlen : H.length = h1.length := by rw [← hH, List.length_set]
                have fx : foot H e x' = foot h1 e x' :=
                  (foot_local h1 H e x' (fun c hc => hHne c (fun h2 => hbx' (h2 ▸ hc)))).1
                have fother : ∀ L : List V, (∀ c ∈ L.flatMap (fun v => foot h e v), c < n ∧ c ≠ b ∧ c ∉ foot h e x) →
                    L.flatMap (fun v => foot H e v) = L.flatMap (fun v => foot h e v) := by
                  intro L hL
                  apply List.flatMap_congr
                  intro w hw
                  refine (foot_local h H e w (fun c hc => ?_)).1
                  obtain ⟨k1, k2, k3⟩ := hL c (List.mem_flatMap.2 ⟨w, hw, hc⟩)
                  rw [hHne c k2]
                  exact c1 c k1 k3
                have kA : ∀ c ∈ A.flatMap (fun v => foot h e v), c < n ∧ c ≠ b ∧ c ∉ foot h e x := by
                  intro c hc
                  refine ⟨hb c (by simp only [List.mem_cons, List.mem_append]; exact Or.inr (Or.inl hc)), ?_, ?_⟩
                  · rintro rfl
                    exact hbn (List.mem_append_left _ hc)
                  · intro h2
                    exact dAxB c hc c (List.mem_append_left _ h2) rfl
                have kB : ∀ c ∈ B.flatMap (fun v => foot h e v), c < n ∧ c ≠ b ∧ c ∉ foot h e x := by
                  intro c hc
                  refine ⟨hb c (by simp only [List.mem_cons, List.mem_append]; exact Or.inr (Or.inr (Or.inr hc))), ?_, ?_⟩
                  · rintro rfl
                    exact hbn (List.mem_append_right _ (List.mem_append_right _ hc))
                  · intro h2
                    exact dxB' c h2 c hc rfl
                rw [hnew, htake, List.flatMap_append, List.flatMap_cons, fx, fother A kA, fother B kB]
                generalize A.flatMap (fun v => foot h e v) = FA at *
                generalize B.flatMap (fun v => foot h e v) = FB at *
                refine ⟨?_, ?_, ?_, ?_, by omega⟩
                · intro c hc hnc
                  simp only [List.mem_cons, List.mem_append, not_or] at hnc
                  rw [hHne c hnc.1]
                  exact c1 c hc hnc.2.2.1
                · refine List.nodup_cons.2 ⟨?_, List.nodup_append.2 ⟨dA, List.nodup_append.2 ⟨c2, dB, ?_⟩, ?_⟩⟩
                  · intro hc
                    simp only [List.mem_append] at hc
                    rcases hc with hc | hc | hc
                    · exact (kA b hc).2.1 rfl
                    · exact hbx' hc
                    · exact (kB b hc).2.1 rfl
                  · intro y hy z hz hyz
                    subst hyz
                    have k := kB y hz
                    rcases c3 y hy with h2 | h2
                    · exact k.2.2 h2
                    · omega
                  · intro y hy z hz hyz
                    subst hyz
                    have k := kA y hy
                    rcases List.mem_append.1 hz with h2 | h2
                    · rcases c3 y h2 with h3 | h3
                      · exact k.2.2 h3
                      · omega
                    · exact dAxB y hy y (List.mem_append_right _ h2) rfl
                · intro c hc
                  simp only [List.mem_cons, List.mem_append] at hc ⊢
                  rcases hc with hc | hc | hc | hc
                  · exact Or.inl (Or.inl hc)
                  · exact Or.inl (Or.inr (Or.inl hc))
                  · rcases c3 c hc with h2 | h2
                    · exact Or.inl (Or.inr (Or.inr (Or.inl h2)))
                    · exact Or.inr h2
                  · exact Or.inl (Or.inr (Or.inr (Or.inr hc)))
                · intro c hc
                  rw [hHlen]
                  simp only [List.mem_cons, List.mem_append] at hc
                  rcases hc with hc | hc | hc | hc
                  · omega
                  · have := (kA c hc).1; omega
                  · exact c4 c hc
                  · have := (kB c hc).1; omega
          · rw [if_neg hil] at hm
            simp at hm

/-! ## Reading -/

/-- The type at a path. -/
def tyAt : Ty → List Sel → Option Ty
  | t, [] => some t
  | .pair a _, .fst :: r => tyAt a r
  | .pair _ b, .snd :: r => tyAt b r
  | .arr e, .idx _ :: r => tyAt e r
  | _, _ => none

/-- No array in it. -/
def flat : Ty → Bool
  | .int => true
  | .unit => true
  | .arr _ => false
  | .pair a b => flat a && flat b

theorem foot_flat (h : Heap) : ∀ (t : Ty) (v : V), flat t = true → foot h t v = [] := by
  intro t
  induction t with
  | int => intro v _; cases v <;> rfl
  | unit => intro v _; cases v <;> rfl
  | arr e => intro v hf; cases hf
  | pair a b iha ihb =>
    intro v hf
    simp only [flat, Bool.and_eq_true] at hf
    cases v with
    | pair u w => simp [foot, iha u hf.1, ihb w hf.2]
    | int n => rfl
    | unit => rfl
    | hdl b l => rfl

theorem readV_spec (h : Heap) : ∀ (ss : List Sel) (t : Ty) (v : V) (t' : Ty) (v' : V),
    readV h t v ss = some (t', v') → tyAt t ss = some t' ∧ ∀ b ∈ foot h t' v', b ∈ foot h t v := by
  intro ss
  induction ss with
  | nil =>
    intro t v t' v' hr
    have h1 : readV h t v [] = some (t, v) := by cases t <;> cases v <;> rfl
    have h2 : tyAt t [] = some t := by cases t <;> rfl
    rw [h1] at hr
    simp only [Option.some.injEq, Prod.mk.injEq] at hr
    obtain ⟨rfl, rfl⟩ := hr
    exact ⟨h2, fun b hb => hb⟩
  | cons s r ih =>
    intro t v t' v' hr
    cases t with
    | int => cases v <;> cases s <;> simp [readV] at hr
    | unit => cases v <;> cases s <;> simp [readV] at hr
    | pair a b =>
      cases v with
      | int n => cases s <;> simp [readV] at hr
      | unit => cases s <;> simp [readV] at hr
      | hdl c l => cases s <;> simp [readV] at hr
      | pair u w =>
        cases s with
        | fst =>
          obtain ⟨h1, h2⟩ := ih a u t' v' hr
          exact ⟨h1, fun c hc => List.mem_append_left _ (h2 c hc)⟩
        | snd =>
          obtain ⟨h1, h2⟩ := ih b w t' v' hr
          exact ⟨h1, fun c hc => List.mem_append_right _ (h2 c hc)⟩
        | idx i => simp [readV] at hr
    | arr e =>
      cases v with
      | int n => cases s <;> simp [readV] at hr
      | unit => cases s <;> simp [readV] at hr
      | pair u w => cases s <;> simp [readV] at hr
      | hdl b l =>
        cases s with
        | fst => simp [readV] at hr
        | snd => simp [readV] at hr
        | idx i =>
          simp only [readV] at hr
          by_cases hil : i < l
          · rw [if_pos hil] at hr
            cases hg : (buf h b)[i]? with
            | none => simp [hg] at hr
            | some x =>
              simp only [hg] at hr
              obtain ⟨h1, h2⟩ := ih e x t' v' hr
              refine ⟨h1, fun c hc => ?_⟩
              simp only [foot, List.mem_cons, List.mem_flatMap]
              refine Or.inr ⟨x, ?_, h2 c hc⟩
              rw [List.mem_iff_getElem?]
              exact ⟨i, by rw [List.getElem?_take_of_lt hil]; exact hg⟩
          · rw [if_neg hil] at hr
            simp at hr

/-- The variables an expression mentions. -/
def roots : Exp → List Nat
  | .path p => [p.root]
  | .snoc a e => roots a ++ roots e
  | .pair a b => roots a ++ roots b
  | _ => []

/-- The type of a path. -/
def pathTy (vars : List Var) (p : Path) : Option Ty :=
  (vars[p.root]?).bind fun x => (sels p.steps).bind (tyAt x.ty)

/-- A literal in which every path is of a type without arrays. -/
def literal (vars : List Var) : Exp → Prop
  | .path p => ∀ t, pathTy vars p = some t → flat t = true
  | .snoc a e => literal vars a ∧ literal vars e
  | .pair a b => literal vars a ∧ literal vars b
  | _ => True

theorem readP_spec {vars : List Var} {h : Heap} {p : Path} {t : Ty} {v : V}
    (hr : readP ⟨vars, h⟩ p = some (t, v)) :
    pathTy vars p = some t ∧ ∃ x, vars[p.root]? = some x ∧ ∀ b ∈ foot h t v, b ∈ foot h x.ty x.val := by
  unfold readP at hr
  cases hx : vars[p.root]? with
  | none => simp [hx] at hr
  | some x =>
    cases hs : sels p.steps with
    | none => simp [hx, hs] at hr
    | some ss =>
      simp only [hx, hs] at hr
      obtain ⟨h1, h2⟩ := readV_spec h ss x.ty x.val t v hr
      exact ⟨by simp [pathTy, hx, hs, h1], x, rfl, h2⟩

theorem snoc_foot {h1 h2 : Heap} {t : Ty} {b l : Nat} {w : V} (e2 : Ext h1 h2)
    (ha : ∀ c ∈ foot h1 (.arr t) (.hdl b l), c < h1.length) (hw : ∀ c ∈ foot h2 t w, c < h2.length) :
    foot (h2 ++ [(buf h2 b).take l ++ [w]]) (.arr t) (.hdl h2.length (((buf h2 b).take l).length + 1)) =
      h2.length :: ((buf h1 b).take l).flatMap (fun v => foot h1 t v) ++ foot h2 t w := by
  have hb : b < h1.length := ha b (by simp [foot])
  have hbuf : buf h2 b = buf h1 b := e2.buf hb
  simp only [foot]
  rw [buf_append_last, hbuf]
  have htk : ((buf h1 b).take l ++ [w]).take (((buf h1 b).take l).length + 1) = (buf h1 b).take l ++ [w] := by
    apply List.take_of_length_le
    simp
  rw [htk, List.flatMap_append, List.cons_append]
  congr 2
  · apply List.flatMap_congr
    intro v hv
    refine (foot_ext (e2.trans (Ext.last _ _)) (fun c hc => ha c ?_)).1
    simp only [foot, List.mem_cons, List.mem_flatMap]
    exact Or.inr ⟨v, hv, hc⟩
  · simp only [List.flatMap_cons, List.flatMap_nil, List.append_nil]
    exact (foot_ext (Ext.last _ _) hw).1

theorem eval_lit (vars : List Var) : ∀ (e : Exp) (h h1 : Heap) (t : Ty) (v : V), literal vars e →
    eval vars h e = some (t, v, h1) → Ext h h1 ∧ New h h1 (foot h1 t v) := by
  intro e
  induction e with
  | int n =>
    intro h h1 t v _ he
    simp only [eval, Option.some.injEq, Prod.mk.injEq] at he
    obtain ⟨rfl, rfl, rfl⟩ := he
    exact ⟨Ext.refl _, New.nil _ _⟩
  | unit =>
    intro h h1 t v _ he
    simp only [eval, Option.some.injEq, Prod.mk.injEq] at he
    obtain ⟨rfl, rfl, rfl⟩ := he
    exact ⟨Ext.refl _, New.nil _ _⟩
  | path p =>
    intro h h1 t v hl he
    simp only [eval] at he
    cases hr : readP ⟨vars, h⟩ p with
    | none => simp [hr] at he
    | some q =>
      obtain ⟨t', v'⟩ := q
      simp only [hr, Option.some.injEq, Prod.mk.injEq] at he
      obtain ⟨rfl, rfl, rfl⟩ := he
      refine ⟨Ext.refl _, ?_⟩
      rw [foot_flat _ _ _ (hl _ (readP_spec hr).1)]
      exact New.nil _ _
  | nil e =>
    intro h h1 t v _ he
    simp only [eval, Option.some.injEq, Prod.mk.injEq] at he
    obtain ⟨rfl, rfl, rfl⟩ := he
    refine ⟨Ext.last _ _, ?_⟩
    have : foot (h ++ [fresh []]) (.arr e) (.hdl h.length 0) = [h.length] := by
      simp [foot]
    rw [this]
    exact New.last (Ext.refl _) (New.nil _ _) _
  | snoc a e iha ihe =>
    intro h h3 t v hl he
    simp only [eval] at he
    cases ha : eval vars h a with
    | none => simp [ha] at he
    | some q =>
      obtain ⟨ta, va, h1⟩ := q
      cases ta with
      | int => simp [ha] at he
      | unit => simp [ha] at he
      | pair x y => simp [ha] at he
      | arr t0 =>
        cases va with
        | int n => simp [ha] at he
        | unit => simp [ha] at he
        | pair x y => simp [ha] at he
        | hdl b l =>
          simp only [ha] at he
          cases hw : eval vars h1 e with
          | none => simp [hw] at he
          | some q =>
            obtain ⟨t', w, h2⟩ := q
            simp only [hw] at he
            by_cases ht : t' = t0
            · rw [if_pos ht] at he
              simp only [Option.some.injEq, Prod.mk.injEq] at he
              obtain ⟨rfl, rfl, rfl⟩ := he
              subst ht
              obtain ⟨e1, n1⟩ := iha h h1 _ _ hl.1 ha
              obtain ⟨e2, n2⟩ := ihe h1 h2 _ _ hl.2 hw
              refine ⟨(e1.trans e2).trans (Ext.last _ _), ?_⟩
              rw [snoc_foot e2 (fun c hc => (n1.2 c hc).2) (fun c hc => (n2.2 c hc).2), List.cons_append]
              refine New.last (e1.trans e2) (New.append e1 e2 ⟨?_, ?_⟩ n2) _
              · exact (List.nodup_cons.1 n1.1).2
              · intro c hc
                exact n1.2 c (List.mem_cons_of_mem _ hc)
            · rw [if_neg ht] at he
              simp at he
  | pair a b iha ihb =>
    intro h h3 t v hl he
    simp only [eval] at he
    cases ha : eval vars h a with
    | none => simp [ha] at he
    | some q =>
      obtain ⟨ta, va, h1⟩ := q
      simp only [ha] at he
      cases hw : eval vars h1 b with
      | none => simp [hw] at he
      | some q =>
        obtain ⟨tb, vb, h2⟩ := q
        simp only [hw, Option.some.injEq, Prod.mk.injEq] at he
        obtain ⟨rfl, rfl, rfl⟩ := he
        obtain ⟨e1, n1⟩ := iha h h1 _ _ hl.1 ha
        obtain ⟨e2, n2⟩ := ihb h1 h2 _ _ hl.2 hw
        refine ⟨e1.trans e2, ?_⟩
        simp only [foot]
        rw [(foot_ext e2 (fun c hc => (n1.2 c hc).2)).1]
        exact New.append e1 e2 n1 n2

/-- The blocks of a value that are not new belong to variables mentioned. -/
def Old (vars : List Var) (h0 h h1 : Heap) (rs : List Nat) (bs : List Nat) : Prop :=
  ∀ b ∈ bs, b < h1.length ∧
    (h.length ≤ b ∨ ∃ x ∈ rs, ∃ w, vars[x]? = some w ∧ b ∈ foot h0 w.ty w.val)

theorem eval_old (vars : List Var) (h0 : Heap)
    (hb : ∀ (x : Nat) (w : Var), vars[x]? = some w → ∀ b ∈ foot h0 w.ty w.val, b < h0.length) :
    ∀ (e : Exp) (h h1 : Heap) (t : Ty) (v : V), Ext h0 h → eval vars h e = some (t, v, h1) →
      Ext h h1 ∧ Old vars h0 h0 h1 (roots e) (foot h1 t v) := by
  intro e
  induction e with
  | int n =>
    intro h h1 t v _ he
    simp only [eval, Option.some.injEq, Prod.mk.injEq] at he
    obtain ⟨rfl, rfl, rfl⟩ := he
    exact ⟨Ext.refl _, fun b hb => absurd hb (by simp [foot])⟩
  | unit =>
    intro h h1 t v _ he
    simp only [eval, Option.some.injEq, Prod.mk.injEq] at he
    obtain ⟨rfl, rfl, rfl⟩ := he
    exact ⟨Ext.refl _, fun b hb => absurd hb (by simp [foot])⟩
  | path p =>
    intro h h1 t v h0h he
    simp only [eval] at he
    cases hr : readP ⟨vars, h⟩ p with
    | none => simp [hr] at he
    | some q =>
      obtain ⟨t', v'⟩ := q
      simp only [hr, Option.some.injEq, Prod.mk.injEq] at he
      obtain ⟨rfl, rfl, rfl⟩ := he
      refine ⟨Ext.refl _, fun b hb' => ?_⟩
      obtain ⟨_, x, hx, hsub⟩ := readP_spec hr
      have h2 := hsub b hb'
      rw [(foot_ext h0h (hb _ _ hx)).1] at h2
      exact ⟨Nat.lt_of_lt_of_le (hb _ _ hx b h2) h0h.le, Or.inr ⟨p.root, by simp [roots], x, hx, h2⟩⟩
  | nil e =>
    intro h h1 t v h0h he
    simp only [eval, Option.some.injEq, Prod.mk.injEq] at he
    obtain ⟨rfl, rfl, rfl⟩ := he
    refine ⟨Ext.last _ _, fun b hb' => ?_⟩
    simp only [foot, List.take_zero, List.flatMap_nil, List.mem_singleton] at hb'
    subst hb'
    exact ⟨by simp, Or.inl h0h.le⟩
  | snoc a e iha ihe =>
    intro h h3 t v h0h he
    simp only [eval] at he
    cases ha : eval vars h a with
    | none => simp [ha] at he
    | some q =>
      obtain ⟨ta, va, h1⟩ := q
      cases ta with
      | int => simp [ha] at he
      | unit => simp [ha] at he
      | pair x y => simp [ha] at he
      | arr t0 =>
        cases va with
        | int n => simp [ha] at he
        | unit => simp [ha] at he
        | pair x y => simp [ha] at he
        | hdl b l =>
          simp only [ha] at he
          cases hw : eval vars h1 e with
          | none => simp [hw] at he
          | some q =>
            obtain ⟨t', w, h2⟩ := q
            simp only [hw] at he
            by_cases ht : t' = t0
            · rw [if_pos ht] at he
              simp only [Option.some.injEq, Prod.mk.injEq] at he
              obtain ⟨rfl, rfl, rfl⟩ := he
              subst ht
              obtain ⟨e1, n1⟩ := iha h h1 _ _ h0h ha
              obtain ⟨e2, n2⟩ := ihe h1 h2 _ _ (h0h.trans e1) hw
              refine ⟨(e1.trans e2).trans (Ext.last _ _), ?_⟩
              rw [snoc_foot e2 (fun c hc => (n1 c hc).1) (fun c hc => (n2 c hc).1), List.cons_append]
              intro c hc
              rcases List.mem_cons.1 hc with rfl | hc
              · exact ⟨by simp, Or.inl ((h0h.trans e1).trans e2).le⟩
              · rcases List.mem_append.1 hc with hc | hc
                · obtain ⟨k1, k2⟩ := n1 c (by simp only [foot]; exact List.mem_cons_of_mem _ hc)
                  refine ⟨by have := e2.le; simp; omega, ?_⟩
                  rcases k2 with k2 | ⟨x, hx, k2⟩
                  · exact Or.inl k2
                  · exact Or.inr ⟨x, List.mem_append_left _ hx, k2⟩
                · obtain ⟨k1, k2⟩ := n2 c hc
                  refine ⟨by simp; omega, ?_⟩
                  rcases k2 with k2 | ⟨x, hx, k2⟩
                  · exact Or.inl k2
                  · exact Or.inr ⟨x, List.mem_append_right _ hx, k2⟩
            · rw [if_neg ht] at he
              simp at he
  | pair a b iha ihb =>
    intro h h3 t v h0h he
    simp only [eval] at he
    cases ha : eval vars h a with
    | none => simp [ha] at he
    | some q =>
      obtain ⟨ta, va, h1⟩ := q
      simp only [ha] at he
      cases hw : eval vars h1 b with
      | none => simp [hw] at he
      | some q =>
        obtain ⟨tb, vb, h2⟩ := q
        simp only [hw, Option.some.injEq, Prod.mk.injEq] at he
        obtain ⟨rfl, rfl, rfl⟩ := he
        obtain ⟨e1, n1⟩ := iha h h1 _ _ h0h ha
        obtain ⟨e2, n2⟩ := ihb h1 h2 _ _ (h0h.trans e1) hw
        refine ⟨e1.trans e2, ?_⟩
        simp only [foot]
        rw [(foot_ext e2 (fun c hc => (n1 c hc).1)).1]
        intro c hc
        rcases List.mem_append.1 hc with hc | hc
        · obtain ⟨k1, k2⟩ := n1 c hc
          refine ⟨by have := e2.le; omega, ?_⟩
          rcases k2 with k2 | ⟨x, hx, k2⟩
          · exact Or.inl k2
          · exact Or.inr ⟨x, List.mem_append_left _ hx, k2⟩
        · obtain ⟨k1, k2⟩ := n2 c hc
          refine ⟨k1, ?_⟩
          rcases k2 with k2 | ⟨x, hx, k2⟩
          · exact Or.inl k2
          · exact Or.inr ⟨x, List.mem_append_right _ hx, k2⟩

/-! ## Separated states -/

/-- The variables in `W` have their own blocks. -/
structure Inv (W : Nat → Prop) (s : State) : Prop where
  bound : ∀ (x : Nat) (v : Var), s.vars[x]? = some v → ∀ b ∈ foot s.heap v.ty v.val, b < s.heap.length
  nodup : ∀ (x : Nat) (v : Var), W x → s.vars[x]? = some v → (foot s.heap v.ty v.val).Nodup
  disj : ∀ (x y : Nat) (v w : Var), W x → x ≠ y → s.vars[x]? = some v → s.vars[y]? = some w →
    ∀ b ∈ foot s.heap v.ty v.val, b ∉ foot s.heap w.ty w.val

theorem Inv.init (W : Nat → Prop) : Inv W init :=
  ⟨by simp [Verif.Store.init], by simp [Verif.Store.init], by simp [Verif.Store.init]⟩

/-- One more variable. -/
theorem Inv.add {W : Nat → Prop} {s : State} (inv : Inv W s) {h : Heap} {t : Ty} {m : Bool} {v : V}
    (he : Ext s.heap h) (hbv : ∀ b ∈ foot h t v, b < h.length)
    (hown : New s.heap h (foot h t v) ∨ (¬ W s.vars.length ∧ ∀ (x : Nat) (w : Var), W x →
      s.vars[x]? = some w → ∀ b ∈ foot s.heap w.ty w.val, b ∉ foot h t v)) :
    Inv W ⟨s.vars ++ [⟨t, m, v⟩], h⟩ ∧
      ∀ y, y < s.vars.length → valueOf ⟨s.vars ++ [⟨t, m, v⟩], h⟩ y = valueOf s y := by
  have hold : ∀ (x : Nat) (w : Var), s.vars[x]? = some w →
      foot h w.ty w.val = foot s.heap w.ty w.val ∧ deep h w.ty w.val = deep s.heap w.ty w.val :=
    fun x w hw => foot_ext he (inv.bound x w hw)
  have hlook : ∀ (x : Nat) (w : Var), (s.vars ++ [⟨t, m, v⟩])[x]? = some w →
      s.vars[x]? = some w ∨ (x = s.vars.length ∧ w = ⟨t, m, v⟩) := by
    intro x w hw
    by_cases hx : x < s.vars.length
    · rw [List.getElem?_append_left hx] at hw
      exact Or.inl hw
    · rw [List.getElem?_append_right (by omega)] at hw
      have : x - s.vars.length = 0 := by
        by_contra hne
        rw [List.getElem?_eq_none (by simp; omega)] at hw
        cases hw
      rw [this] at hw
      simp only [List.getElem?_cons_zero, Option.some.injEq] at hw
      exact Or.inr ⟨by omega, hw.symm⟩
  have hlt : ∀ (x : Nat) (w : Var), s.vars[x]? = some w → x < s.vars.length := by
    intro x w hw
    rw [List.getElem?_eq_some_iff] at hw
    exact hw.1
  refine ⟨⟨?_, ?_, ?_⟩, ?_⟩
  · intro x w hw b hb
    rcases hlook x w hw with h1 | ⟨_, rfl⟩
    · rw [(hold x w h1).1] at hb
      exact Nat.lt_of_lt_of_le (inv.bound x w h1 b hb) he.le
    · exact hbv b hb
  · intro x w hWx hw
    rcases hlook x w hw with h1 | ⟨rfl, rfl⟩
    · rw [(hold x w h1).1]
      exact inv.nodup x w hWx h1
    · rcases hown with hn | ⟨hn, _⟩
      · exact hn.1
      · exact absurd hWx hn
  · intro x y w u hWx hxy hw hu b hb hbu
    rcases hlook x w hw with h1 | ⟨hx, rfl⟩
    · rw [(hold x w h1).1] at hb
      rcases hlook y u hu with h2 | ⟨rfl, rfl⟩
      · rw [(hold y u h2).1] at hbu
        exact inv.disj x y w u hWx hxy h1 h2 b hb hbu
      · rcases hown with hn | ⟨_, hn⟩
        · have := (hn.2 b hbu).1
          have := inv.bound x w h1 b hb
          omega
        · exact hn x w hWx h1 b hb hbu
    · rcases hlook y u hu with h2 | ⟨hy, rfl⟩
      · rw [(hold y u h2).1] at hbu
        rcases hown with hn | ⟨hn, _⟩
        · have := (hn.2 b hb).1
          have := inv.bound y u h2 b hbu
          omega
        · exact hn (hx ▸ hWx)
      · omega
  · intro y hy
    unfold valueOf
    rw [List.getElem?_append_left hy]
    cases hv : s.vars[y]? with
    | none => rfl
    | some w => simp only [(hold y w hv).2]

/-- One variable changed. -/
theorem Inv.change {W : Nat → Prop} {s s' : State} (inv : Inv W s) {x : Nat} (hx : W x) {ss : List Sel}
    {h : Heap} {upd : Ty → V → Option (V × Heap)} (he : Ext s.heap h)
    (hupd : ∀ t v v' h', (foot h t v).Nodup → (∀ b ∈ foot h t v, b < s.heap.length) →
      upd t v = some (v', h') → Chg s.heap.length h h' (foot h t v) (foot h' t v'))
    (hc : change s x ss h upd = some s') :
    Inv W s' ∧ ∀ y, x ≠ y → valueOf s' y = valueOf s y := by
  unfold Verif.Store.change at hc
  cases hv : s.vars[x]? with
  | none => simp [hv] at hc
  | some v =>
    simp only [hv] at hc
    cases hm : modV upd h v.ty v.val ss with
    | none => simp [hm] at hc
    | some q =>
      obtain ⟨v', h'⟩ := q
      simp only [hm, Option.some.injEq] at hc
      subst hc
      have hext := foot_ext he (inv.bound x v hv)
      obtain ⟨c1, c2, c3, c4, c5⟩ := modV_spec he.le hupd ss v.ty v.val v' h'
        (by rw [hext.1]; exact inv.nodup x v hx hv) (by rw [hext.1]; exact inv.bound x v hv) hm
      rw [hext.1] at c1 c3
      have hother : ∀ (y : Nat) (w : Var), x ≠ y → s.vars[y]? = some w →
          foot h' w.ty w.val = foot s.heap w.ty w.val ∧ deep h' w.ty w.val = deep s.heap w.ty w.val := by
        intro y w hxy hw
        apply foot_local
        intro b hb
        have hlt := inv.bound y w hw b hb
        rw [c1 b hlt (fun hb' => inv.disj x y v w hx hxy hv hw b hb' hb)]
        exact he.buf hlt
      have hxl : x < s.vars.length := by
        rw [List.getElem?_eq_some_iff] at hv
        exact hv.1
      have hlook : ∀ (y : Nat) (w : Var), (s.vars.set x ⟨v.ty, v.mutable, v'⟩)[y]? = some w →
          (x ≠ y ∧ s.vars[y]? = some w) ∨ (x = y ∧ w = ⟨v.ty, v.mutable, v'⟩) := by
        intro y w hw
        by_cases hxy : x = y
        · subst hxy
          rw [List.getElem?_set_self hxl] at hw
          exact Or.inr ⟨rfl, (Option.some.injEq _ _ ▸ hw).symm⟩
        · rw [List.getElem?_set_ne hxy] at hw
          exact Or.inl ⟨hxy, hw⟩
      have hle := he.le
      refine ⟨⟨?_, ?_, ?_⟩, ?_⟩
      · intro y w hw b hb
        rcases hlook y w hw with ⟨h1, h2⟩ | ⟨_, rfl⟩
        · rw [(hother y w h1 h2).1] at hb
          have := inv.bound y w h2 b hb
          show b < h'.length
          omega
        · exact c4 b hb
      · intro y w hWy hw
        rcases hlook y w hw with ⟨h1, h2⟩ | ⟨_, rfl⟩
        · rw [(hother y w h1 h2).1]
          exact inv.nodup y w hWy h2
        · exact c2
      · intro y z w u hWy hyz hw hu b hb hbu
        rcases hlook y w hw with ⟨h1, h2⟩ | ⟨h1, rfl⟩
        · rw [(hother y w h1 h2).1] at hb
          rcases hlook z u hu with ⟨h3, h4⟩ | ⟨h3, rfl⟩
          · rw [(hother z u h3 h4).1] at hbu
            exact inv.disj y z w u hWy hyz h2 h4 b hb hbu
          · rcases c3 b hbu with h5 | h5
            · exact inv.disj y x w v hWy (fun h6 => h1 h6.symm) h2 hv b hb h5
            · have := inv.bound y w h2 b hb
              omega
        · rcases hlook z u hu with ⟨h3, h4⟩ | ⟨h3, rfl⟩
          · rw [(hother z u h3 h4).1] at hbu
            rcases c3 b hb with h5 | h5
            · exact inv.disj x z v u hx h3 hv h4 b h5 hbu
            · have := inv.bound z u h4 b hbu
              omega
          · exact hyz (h1.symm.trans h3)
      · intro y hxy
        unfold valueOf
        simp only [List.getElem?_set_ne hxy]
        cases hw : s.vars[y]? with
        | none => rfl
        | some w => simp only [(hother y w hxy hw).2]

/-! ## Statements -/

theorem flatMap_unit (h : Heap) (t : Ty) (n : Nat) :
    (List.replicate n V.unit).flatMap (fun v => foot h t v) = [] := by
  have hu : foot h t V.unit = [] := by cases t <;> rfl
  induction n with
  | zero => rfl
  | succ n ih => rw [List.replicate_succ, List.flatMap_cons, ih, hu]; rfl

theorem push_spec {n : Nat} {h : Heap} {t' : Ty} {w : V} (hn : n ≤ h.length)
    (hw : (foot h t' w).Nodup ∧ ∀ b ∈ foot h t' w, n ≤ b ∧ b < h.length) :
    ∀ t v v' h', (foot h t v).Nodup → (∀ b ∈ foot h t v, b < n) →
      (if t = .arr t' then push h w t v else none) = some (v', h') →
      Chg n h h' (foot h t v) (foot h' t v') := by
  intro t v v' h' hd hb hp
  by_cases ht : t = .arr t'
  swap
  · rw [if_neg ht] at hp; cases hp
  rw [if_pos ht] at hp
  subst ht
  cases v with
  | int k => simp [push] at hp
  | unit => simp [push] at hp
  | pair x y => simp [push] at hp
  | hdl b l =>
    simp only [foot] at hd hb
    obtain ⟨hbn, hd2⟩ := List.nodup_cons.1 hd
    have bb : b < n := hb b (by simp)
    have hF : ∀ c ∈ ((buf h b).take l).flatMap (fun v => foot h t' v), c < n :=
      fun c hc => hb c (List.mem_cons_of_mem _ hc)
    simp only [push] at hp
    by_cases hfull : (buf h b).length ≤ l
    · rw [if_pos hfull] at hp
      simp only [Option.some.injEq, Prod.mk.injEq] at hp
      obtain ⟨rfl, rfl⟩ := hp
      generalize (if (buf h b).length < 4 then 4 else 2 * (buf h b).length) - (l + 1) = k
      have hP : ((buf h b).take l ++ w :: List.replicate k V.unit).take (l + 1) =
          (buf h b).take l ++ w :: List.replicate (min (l - ((buf h b).take l).length) k) V.unit := by
        have hl : ((buf h b).take l).length ≤ l := by rw [List.length_take]; omega
        rw [List.take_append, List.take_of_length_le (by omega),
          show l + 1 - ((buf h b).take l).length = (l - ((buf h b).take l).length) + 1 by omega,
          List.take_succ_cons, List.take_replicate]
      have e1 : Ext h (h ++ [(buf h b).take l ++ w :: List.replicate k V.unit]) := Ext.last _ _
      simp only [foot]
      rw [buf_append_last, hP, List.flatMap_append, List.flatMap_cons, flatMap_unit, List.append_nil,
        (foot_ext e1 (fun c hc => (hw.2 c hc).2)).1]
      have hA : ((buf h b).take l).flatMap
          (fun v => foot (h ++ [(buf h b).take l ++ w :: List.replicate k V.unit]) t' v) =
          ((buf h b).take l).flatMap (fun v => foot h t' v) := by
        apply List.flatMap_congr
        intro u hu
        refine (foot_ext e1 (fun c hc => ?_)).1
        have := hF c (List.mem_flatMap.2 ⟨u, hu, hc⟩)
        omega
      rw [hA]
      refine ⟨fun c hc _ => e1.buf (by omega), ?_, ?_, ?_, e1.le⟩
      · refine List.nodup_cons.2 ⟨?_, List.nodup_append.2 ⟨hd2, hw.1, ?_⟩⟩
        · intro hc
          rcases List.mem_append.1 hc with hc | hc
          · have := hF _ hc; omega
          · have := (hw.2 _ hc).2; omega
        · intro x hx y hy hxy
          subst hxy
          have := hF _ hx
          have := (hw.2 _ hy).1
          omega
      · intro c hc
        rcases List.mem_cons.1 hc with rfl | hc
        · exact Or.inr hn
        · rcases List.mem_append.1 hc with hc | hc
          · exact Or.inl (List.mem_cons_of_mem _ hc)
          · exact Or.inr (hw.2 _ hc).1
      · intro c hc
        rw [List.length_append, List.length_singleton]
        rcases List.mem_cons.1 hc with rfl | hc
        · omega
        · rcases List.mem_append.1 hc with hc | hc
          · have := hF _ hc; omega
          · have := (hw.2 _ hc).2; omega
    · rw [if_neg hfull] at hp
      simp only [Option.some.injEq, Prod.mk.injEq] at hp
      obtain ⟨rfl, rfl⟩ := hp
      have hP : ((buf h b).set l w).take (l + 1) = (buf h b).take l ++ [w] := by
        rw [List.take_set, List.take_succ_eq_append_getElem (by omega),
          List.set_append_right _ _ (by rw [List.length_take]; omega)]
        have : l - ((buf h b).take l).length = 0 := by rw [List.length_take]; omega
        rw [this]; rfl
      have hne : ∀ c, c ≠ b → buf (h.set b ((buf h b).set l w)) c = buf h c :=
        fun c hc => buf_set_ne _ _ (fun h2 => hc h2.symm)
      simp only [foot]
      rw [buf_set_eq _ _ (by omega), hP, List.flatMap_append]
      have hA : ((buf h b).take l).flatMap (fun v => foot (h.set b ((buf h b).set l w)) t' v) =
          ((buf h b).take l).flatMap (fun v => foot h t' v) := by
        apply List.flatMap_congr
        intro u hu
        refine (foot_local h _ t' u (fun c hc => hne c ?_)).1
        rintro rfl
        exact hbn (List.mem_flatMap.2 ⟨u, hu, hc⟩)
      have hB : foot (h.set b ((buf h b).set l w)) t' w = foot h t' w := by
        refine (foot_local h _ t' w (fun c hc => hne c ?_)).1
        rintro rfl
        have := (hw.2 _ hc).1
        omega
      simp only [List.flatMap_cons, List.flatMap_nil, List.append_nil]
      rw [hA, hB]
      refine ⟨fun c _ hnc => hne c (fun h2 => hnc (by simp [h2])), ?_, ?_, ?_, by simp⟩
      · refine List.nodup_cons.2 ⟨?_, List.nodup_append.2 ⟨hd2, hw.1, ?_⟩⟩
        · intro hc
          rcases List.mem_append.1 hc with hc | hc
          · exact hbn hc
          · have := (hw.2 _ hc).1; omega
        · intro x hx y hy hxy
          subst hxy
          have := hF _ hx
          have := (hw.2 _ hy).1
          omega
      · intro c hc
        rcases List.mem_cons.1 hc with rfl | hc
        · exact Or.inl (by simp)
        · rcases List.mem_append.1 hc with hc | hc
          · exact Or.inl (List.mem_cons_of_mem _ hc)
          · exact Or.inr (hw.2 _ hc).1
      · intro c hc
        rw [List.length_set]
        rcases List.mem_cons.1 hc with rfl | hc
        · omega
        · rcases List.mem_append.1 hc with hc | hc
          · have := hF _ hc; omega
          · have := (hw.2 _ hc).2; omega

/-- The rule for a statement, given the set of variables a program ever writes to: only those are written, what
is stored into them is built anew or copied, and a declaration that shares does so between variables that
are never written. -/
def okStmt (W : Nat → Prop) (vars : List Var) : Stmt → Prop
  | .decl top _ f t e => literal vars e ∨ declCopies top f t e = true ∨
      (¬ W vars.length ∧ ∀ x ∈ roots e, ¬ W x)
  | .bind _ e => literal vars e ∨ (¬ W vars.length ∧ ∀ x ∈ roots e, ¬ W x)
  | .assign p e => W p.root ∧ (literal vars e ∨ assignCopies p = true)
  | .incr p => W p.root
  | .append p e => W p.root ∧ literal vars e

theorem exec_spec {W : Nat → Prop} {s s' : State} {c : Stmt} (inv : Inv W s) (ok : okStmt W s.vars c)
    (he : exec s c = some s') :
    Inv W s' ∧ ∀ y, y < s.vars.length → target c ≠ some y → valueOf s' y = valueOf s y := by
  cases c with
  | decl top m f t e =>
    simp only [exec] at he
    cases hv : eval s.vars s.heap e with
    | none => simp [hv] at he
    | some q =>
      obtain ⟨t', v, h⟩ := q
      simp only [hv] at he
      by_cases ht : t' = t
      swap
      · rw [if_neg ht] at he; cases he
      subst ht
      rw [if_pos rfl] at he
      obtain ⟨e1, ho⟩ := eval_old s.vars s.heap inv.bound e s.heap h t' v (Ext.refl _) hv
      by_cases hc : declCopies top f t' e = true
      · rw [if_pos hc] at he
        simp only [Option.some.injEq] at he
        subst he
        obtain ⟨e2, n2⟩ := copy_spec t' h v
        have hn : New s.heap (copy t' h v).2 (foot (copy t' h v).2 t' (copy t' h v).1) :=
          ⟨n2.1, fun b hb => ⟨Nat.le_trans e1.le (n2.2 b hb).1, (n2.2 b hb).2⟩⟩
        have := inv.add (m := m) (e1.trans e2) (fun b hb => (n2.2 b hb).2) (Or.inl hn)
        exact ⟨this.1, fun y hy _ => this.2 y hy⟩
      · rw [if_neg hc] at he
        simp only [Option.some.injEq] at he
        subst he
        have := inv.add (m := m) e1 (fun b hb => (ho b hb).1) (t := t') (v := v) (by
          rcases ok with ok | ok | ok
          · exact Or.inl (eval_lit s.vars e s.heap h t' v ok hv).2
          · exact absurd ok hc
          · refine Or.inr ⟨ok.1, fun x w hWx hx b hb hb' => ?_⟩
            rcases (ho b hb').2 with h1 | ⟨y, hy, u, hu, h1⟩
            · have := inv.bound x w hx b hb
              omega
            · exact inv.disj x y w u hWx (fun h2 => ok.2 y hy (h2 ▸ hWx)) hx hu b hb h1)
        exact ⟨this.1, fun y hy _ => this.2 y hy⟩
  | bind t e =>
    simp only [exec] at he
    cases hv : eval s.vars s.heap e with
    | none => simp [hv] at he
    | some q =>
      obtain ⟨t', v, h⟩ := q
      simp only [hv] at he
      by_cases ht : t' = t
      swap
      · rw [if_neg ht] at he; cases he
      subst ht
      rw [if_pos rfl] at he
      obtain ⟨e1, ho⟩ := eval_old s.vars s.heap inv.bound e s.heap h t' v (Ext.refl _) hv
      simp only [Option.some.injEq] at he
      subst he
      have := inv.add (m := false) e1 (fun b hb => (ho b hb).1) (t := t') (v := v) (by
        rcases ok with ok | ok
        · exact Or.inl (eval_lit s.vars e s.heap h t' v ok hv).2
        · refine Or.inr ⟨ok.1, fun x w hWx hx b hb hb' => ?_⟩
          rcases (ho b hb').2 with h1 | ⟨y, hy, u, hu, h1⟩
          · have := inv.bound x w hx b hb
            omega
          · exact inv.disj x y w u hWx (fun h2 => ok.2 y hy (h2 ▸ hWx)) hx hu b hb h1)
      exact ⟨this.1, fun y hy _ => this.2 y hy⟩
  | assign p e =>
    simp only [exec] at he
    cases hs : sels p.steps with
    | none => simp [hs] at he
    | some ss =>
      cases hv : eval s.vars s.heap e with
      | none => simp [hs, hv] at he
      | some q =>
        obtain ⟨t', v, h⟩ := q
        simp only [hs, hv] at he
        obtain ⟨e1, ho⟩ := eval_old s.vars s.heap inv.bound e s.heap h t' v (Ext.refl _) hv
        have key : ∀ (v1 : V) (h1 : Heap), Ext s.heap h1 → New s.heap h1 (foot h1 t' v1) →
            change s p.root ss h1 (fun t _ => if t' = t then some (v1, h1) else none) = some s' →
            Inv W s' ∧ ∀ y, p.root ≠ y → valueOf s' y = valueOf s y := by
          intro v1 h1 hx1 hn1 hch
          refine inv.change ok.1 hx1 ?_ hch
          intro t u u' h' _ _ hu
          by_cases htt : t' = t
          · rw [if_pos htt] at hu
            simp only [Option.some.injEq, Prod.mk.injEq] at hu
            obtain ⟨rfl, rfl⟩ := hu
            subst htt
            exact ⟨fun _ _ _ => rfl, hn1.1, fun b hb => Or.inr (hn1.2 b hb).1,
              fun b hb => (hn1.2 b hb).2, Nat.le_refl _⟩
          · rw [if_neg htt] at hu; cases hu
        by_cases hc : assignCopies p = true
        · rw [if_pos hc] at he
          obtain ⟨e2, n2⟩ := copy_spec t' h v
          have := key _ _ (e1.trans e2)
            ⟨n2.1, fun b hb => ⟨Nat.le_trans e1.le (n2.2 b hb).1, (n2.2 b hb).2⟩⟩ he
          exact ⟨this.1, fun y _ hy => this.2 y (fun h2 => hy (by simp [target, h2]))⟩
        · rw [if_neg hc] at he
          have := key _ _ e1 (eval_lit s.vars e s.heap h t' v (ok.2.resolve_right hc) hv).2 he
          exact ⟨this.1, fun y _ hy => this.2 y (fun h2 => hy (by simp [target, h2]))⟩
  | incr p =>
    simp only [exec] at he
    cases hs : sels p.steps with
    | none => simp [hs] at he
    | some ss =>
      simp only [hs] at he
      have := inv.change (ok : W p.root) (Ext.refl _) (by
        intro t u u' h' hd hb hu
        cases u with
        | int n =>
          simp only [Option.some.injEq, Prod.mk.injEq] at hu
          obtain ⟨rfl, rfl⟩ := hu
          have : foot s.heap t (.int (n + 1)) = [] := by cases t <;> rfl
          rw [this]
          exact ⟨fun _ _ _ => rfl, List.nodup_nil, by simp, by simp, Nat.le_refl _⟩
        | unit => cases hu
        | hdl b l => cases hu
        | pair x y => cases hu) he
      exact ⟨this.1, fun y _ hy => this.2 y (fun h2 => hy (by simp [target, h2]))⟩
  | append p e =>
    simp only [exec] at he
    cases hs : sels p.steps with
    | none => simp [hs] at he
    | some ss =>
      cases hv : eval s.vars s.heap e with
      | none => simp [hs, hv] at he
      | some q =>
        obtain ⟨t', w, h⟩ := q
        simp only [hs, hv] at he
        obtain ⟨e1, n1⟩ := eval_lit s.vars e s.heap h t' w ok.2 hv
        have := inv.change ok.1 e1 (push_spec e1.le ⟨n1.1, n1.2⟩) he
        exact ⟨this.1, fun y _ hy => this.2 y (fun h2 => hy (by simp [target, h2]))⟩

/-- Every statement follows the rule in the state it runs in. -/
def Rule (W : Nat → Prop) : State → List Stmt → Prop
  | _, [] => True
  | s, c :: cs => okStmt W s.vars c ∧ ∀ s', step s c = some s' → Rule W s' cs

theorem step_exec {s s' : State} {c : Stmt} (h : step s c = some s') :
    accepts s.vars c = true ∧ exec s c = some s' := by
  unfold step at h
  by_cases ha : accepts s.vars c = true
  · rw [if_pos ha] at h
    exact ⟨ha, h⟩
  · rw [if_neg ha] at h
    cases h

theorem length_change {s s' : State} {x : Nat} {ss : List Sel} {h : Heap} {upd : Ty → V → Option (V × Heap)}
    (hc : change s x ss h upd = some s') : s'.vars.length = s.vars.length ∧
      ∀ y : Nat, (s'.vars[y]?).map Var.mutable = (s.vars[y]?).map Var.mutable := by
  unfold change at hc
  cases hv : s.vars[x]? with
  | none => simp [hv] at hc
  | some v =>
    simp only [hv] at hc
    cases hm : modV upd h v.ty v.val ss with
    | none => simp [hm] at hc
    | some q =>
      simp only [hm, Option.some.injEq] at hc
      subst hc
      refine ⟨by simp, fun y => ?_⟩
      by_cases hxy : x = y
      · subst hxy
        rw [List.getElem?_eq_some_iff] at hv
        obtain ⟨hl, hv⟩ := hv
        simp only
        rw [List.getElem?_set_self hl, List.getElem?_eq_getElem hl, hv]
        rfl
      · simp only
        rw [List.getElem?_set_ne hxy]

theorem exec_vars {s s' : State} {c : Stmt} (he : exec s c = some s') :
    s.vars.length ≤ s'.vars.length ∧
      ∀ y, y < s.vars.length → (s'.vars[y]?).map Var.mutable = (s.vars[y]?).map Var.mutable := by
  cases c with
  | decl top m f t e =>
    simp only [exec] at he
    cases hv : eval s.vars s.heap e with
    | none => simp [hv] at he
    | some q =>
      obtain ⟨t', v, h⟩ := q
      simp only [hv] at he
      by_cases ht : t' = t
      · rw [if_pos ht] at he
        split at he <;>
        · simp only [Option.some.injEq] at he
          subst he
          exact ⟨by simp, fun y hy => by simp only [List.getElem?_append_left hy]⟩
      · rw [if_neg ht] at he; cases he
  | bind t e =>
    simp only [exec] at he
    cases hv : eval s.vars s.heap e with
    | none => simp [hv] at he
    | some q =>
      obtain ⟨t', v, h⟩ := q
      simp only [hv] at he
      by_cases ht : t' = t
      · rw [if_pos ht] at he
        simp only [Option.some.injEq] at he
        subst he
        exact ⟨by simp, fun y hy => by simp only [List.getElem?_append_left hy]⟩
      · rw [if_neg ht] at he; cases he
  | assign p e =>
    simp only [exec] at he
    cases hs : sels p.steps with
    | none => simp [hs] at he
    | some ss =>
      cases hv : eval s.vars s.heap e with
      | none => simp [hs, hv] at he
      | some q =>
        obtain ⟨t', v, h⟩ := q
        simp only [hs, hv] at he
        split at he
        · have := length_change he
          exact ⟨by omega, fun y _ => this.2 y⟩
        · have := length_change he
          exact ⟨by omega, fun y _ => this.2 y⟩
  | incr p =>
    simp only [exec] at he
    cases hs : sels p.steps with
    | none => simp [hs] at he
    | some ss =>
      simp only [hs] at he
      have := length_change he
      exact ⟨by omega, fun y _ => this.2 y⟩
  | append p e =>
    simp only [exec] at he
    cases hs : sels p.steps with
    | none => simp [hs] at he
    | some ss =>
      cases hv : eval s.vars s.heap e with
      | none => simp [hs, hv] at he
      | some q =>
        obtain ⟨t', v, h⟩ := q
        simp only [hs, hv] at he
        have := length_change he
        exact ⟨by omega, fun y _ => this.2 y⟩

theorem run_spec {W : Nat → Prop} : ∀ (cs : List Stmt) (s s' : State), Inv W s → Rule W s cs →
    run s cs = some s' →
    Inv W s' ∧ s.vars.length ≤ s'.vars.length ∧
      ∀ y, y < s.vars.length → (∀ c ∈ cs, target c ≠ some y) → valueOf s' y = valueOf s y := by
  intro cs
  induction cs with
  | nil =>
    intro s s' inv _ hr
    simp only [run, Option.some.injEq] at hr
    subst hr
    exact ⟨inv, Nat.le_refl _, fun _ _ _ => rfl⟩
  | cons c cs ih =>
    intro s s' inv rule hr
    simp only [run] at hr
    cases hs : step s c with
    | none => simp [hs] at hr
    | some s1 =>
      simp only [hs] at hr
      obtain ⟨_, he⟩ := step_exec hs
      obtain ⟨inv1, h1⟩ := exec_spec inv rule.1 he
      obtain ⟨inv2, h2, h3⟩ := ih s1 s' inv1 (rule.2 s1 hs) hr
      have hl := (exec_vars he).1
      refine ⟨inv2, by omega, fun y hy ht => ?_⟩
      rw [h3 y (by omega) (fun d hd => ht d (List.mem_cons_of_mem _ hd)),
        h1 y hy (ht c (by simp))]

theorem rule_target {W : Nat → Prop} : ∀ (cs : List Stmt) (s s' : State), Rule W s cs →
    run s cs = some s' → ∀ c ∈ cs, ∀ y, target c = some y → W y := by
  intro cs
  induction cs with
  | nil => intro s s' _ _ c hc; cases hc
  | cons d cs ih =>
    intro s s' rule hr c hc y hy
    simp only [run] at hr
    cases hs : step s d with
    | none => simp [hs] at hr
    | some s1 =>
      simp only [hs] at hr
      rcases List.mem_cons.1 hc with rfl | hc
      · cases c with
        | decl => cases hy
        | bind => cases hy
        | assign p e =>
          simp only [target, Option.some.injEq] at hy
          subst hy
          exact rule.1.1
        | incr p =>
          simp only [target, Option.some.injEq] at hy
          subst hy
          exact rule.1
        | append p e =>
          simp only [target, Option.some.injEq] at hy
          subst hy
          exact rule.1.1
      · exact ih s1 s' (rule.2 s1 hs) hr c hc y hy

/-! ## Blocks are allocated ones, in every program -/

def okV (n : Nat) : V → Prop
  | .hdl b _ => b < n
  | .pair a b => okV n a ∧ okV n b
  | _ => True

theorem okV.mono {n m : Nat} (hnm : n ≤ m) : ∀ {v : V}, okV n v → okV m v := by
  intro v
  induction v with
  | int k => exact fun h => h
  | unit => exact fun h => h
  | hdl b l => exact fun h => Nat.lt_of_lt_of_le h hnm
  | pair a b iha ihb => exact fun h => ⟨iha h.1, ihb h.2⟩

def okH (n : Nat) (h : Heap) : Prop := ∀ vs ∈ h, ∀ v ∈ vs, okV n v

theorem okH.buf {n : Nat} {h : Heap} (hh : okH n h) (b : Nat) : ∀ v ∈ buf h b, okV n v := by
  intro v hv
  unfold Verif.Store.buf at hv
  rw [List.getD_eq_getElem?_getD] at hv
  cases hg : h[b]? with
  | none => rw [hg] at hv; cases hv
  | some vs =>
    rw [hg] at hv
    exact hh vs (List.mem_of_getElem? hg) v hv

theorem okH.mono {n m : Nat} (hnm : n ≤ m) {h : Heap} (hh : okH n h) : okH m h :=
  fun vs hvs v hv => okV.mono hnm (hh vs hvs v hv)

theorem okH.add {n : Nat} {h : Heap} (hh : okH n h) {vs : List V} (hv : ∀ v ∈ vs, okV n v) :
    okH n (h ++ [vs]) := by
  intro ws hws
  rcases List.mem_append.1 hws with h1 | h1
  · exact hh ws h1
  · rw [List.mem_singleton] at h1
    subst h1
    exact hv

theorem okH.set {n : Nat} {h : Heap} (hh : okH n h) {b : Nat} {vs : List V} (hv : ∀ v ∈ vs, okV n v) :
    okH n (h.set b vs) := by
  intro ws hws
  rcases List.mem_or_eq_of_mem_set hws with h1 | h1
  · exact hh ws h1
  · subst h1
    exact hv

theorem foot_ok {h : Heap} (hh : okH h.length h) : ∀ (t : Ty) (v : V), okV h.length v →
    ∀ b ∈ foot h t v, b < h.length := by
  intro t
  induction t with
  | int => intro v _ b hb; cases v <;> cases hb
  | unit => intro v _ b hb; cases v <;> cases hb
  | pair a b iha ihb =>
    intro v hv c hc
    cases v with
    | pair u w =>
      rcases List.mem_append.1 hc with h1 | h1
      · exact iha u hv.1 c h1
      · exact ihb w hv.2 c h1
    | int k => cases hc
    | unit => cases hc
    | hdl b l => cases hc
  | arr e ih =>
    intro v hv c hc
    cases v with
    | hdl b l =>
      simp only [foot, List.mem_cons, List.mem_flatMap] at hc
      rcases hc with rfl | ⟨w, hw, hc⟩
      · exact hv
      · exact ih w (hh.buf b w (List.mem_of_mem_take hw)) c hc
    | int k => cases hc
    | unit => cases hc
    | pair u w => cases hc

/-- A heap and a value that point to allocated blocks. -/
def OkR (h : Heap) (v : V) : Prop := okH h.length h ∧ okV h.length v

theorem readV_ok {h : Heap} (hh : okH h.length h) : ∀ (ss : List Sel) (t : Ty) (v : V) (t' : Ty) (v' : V),
    okV h.length v → readV h t v ss = some (t', v') → okV h.length v' := by
  intro ss
  induction ss with
  | nil =>
    intro t v t' v' hv hr
    have h1 : readV h t v [] = some (t, v) := by cases t <;> cases v <;> rfl
    rw [h1] at hr
    simp only [Option.some.injEq, Prod.mk.injEq] at hr
    obtain ⟨rfl, rfl⟩ := hr
    exact hv
  | cons s r ih =>
    intro t v t' v' hv hr
    cases t <;> cases v <;> cases s <;> first
      | (simp [readV] at hr; done)
      | exact ih _ _ t' v' hv.1 hr
      | exact ih _ _ t' v' hv.2 hr
      | skip
    rename_i e b l i
    simp only [readV] at hr
    by_cases hil : i < l
    · rw [if_pos hil] at hr
      cases hg : (buf h b)[i]? with
      | none => simp [hg] at hr
      | some x =>
        simp only [hg] at hr
        exact ih e x t' v' (hh.buf b x (List.mem_of_getElem? hg)) hr
    · rw [if_neg hil] at hr
      simp at hr

theorem copyL_ok {f : Heap → V → V × Heap}
    (hf : ∀ h v, OkR h v → OkR (f h v).2 (f h v).1 ∧ h.length ≤ (f h v).2.length) :
    ∀ (vs : List V) (h : Heap), okH h.length h → (∀ v ∈ vs, okV h.length v) →
      okH (copyL f h vs).2.length (copyL f h vs).2 ∧
      (∀ v ∈ (copyL f h vs).1, okV (copyL f h vs).2.length v) ∧ h.length ≤ (copyL f h vs).2.length := by
  intro vs
  induction vs with
  | nil => intro h hh _; exact ⟨hh, (fun v hv => by cases hv), Nat.le_refl _⟩
  | cons v vs ih =>
    intro h hh hv
    obtain ⟨⟨h1, h2⟩, h3⟩ := hf h v ⟨hh, hv v (by simp)⟩
    obtain ⟨k1, k2, k3⟩ := ih (f h v).2 h1 (fun w hw => okV.mono h3 (hv w (by simp [hw])))
    refine ⟨k1, ?_, Nat.le_trans h3 k3⟩
    intro w hw
    simp only [copyL, List.mem_cons] at hw
    rcases hw with rfl | hw
    · exact okV.mono k3 h2
    · exact k2 w hw

theorem fresh_ok {n : Nat} {vs : List V} (h : ∀ v ∈ vs, okV n v) : ∀ v ∈ fresh vs, okV n v := by
  intro v hv
  unfold fresh at hv
  by_cases hn : vs = []
  · rw [if_pos hn] at hv
    rw [List.eq_of_mem_replicate hv]
    trivial
  · rw [if_neg hn] at hv
    exact h v hv

theorem copy_ok : ∀ (t : Ty) (h : Heap) (v : V), OkR h v →
    OkR (copy t h v).2 (copy t h v).1 ∧ h.length ≤ (copy t h v).2.length := by
  intro t
  induction t with
  | int => intro h v hv; cases v <;> exact ⟨hv, Nat.le_refl _⟩
  | unit => intro h v hv; cases v <;> exact ⟨hv, Nat.le_refl _⟩
  | pair a b iha ihb =>
    intro h v hv
    cases v with
    | pair u w =>
      obtain ⟨h1, h2⟩ := iha h u ⟨hv.1, hv.2.1⟩
      obtain ⟨h3, h4⟩ := ihb (copy a h u).2 w ⟨h1.1, okV.mono h2 hv.2.2⟩
      exact ⟨⟨h3.1, okV.mono h4 h1.2, h3.2⟩, Nat.le_trans h2 h4⟩
    | int n => exact ⟨hv, Nat.le_refl _⟩
    | unit => exact ⟨hv, Nat.le_refl _⟩
    | hdl b l => exact ⟨hv, Nat.le_refl _⟩
  | arr e ih =>
    intro h v hv
    cases v with
    | hdl b l =>
      obtain ⟨h1, h2, h3⟩ := copyL_ok (f := fun h v => copy e h v) (fun h v => ih h v)
        ((buf h b).take l) h hv.1 (fun w hw => hv.1.buf b w (List.mem_of_mem_take hw))
      simp only [copy]
      generalize copyL (fun h v => copy e h v) h ((buf h b).take l) = r at *
      refine ⟨⟨?_, ?_⟩, ?_⟩
      · rw [List.length_append, List.length_singleton]
        exact okH.mono (Nat.le_succ _) (h1.add (fresh_ok h2))
      · show r.2.length < _
        simp
      · simp
        omega
    | int n => exact ⟨hv, Nat.le_refl _⟩
    | unit => exact ⟨hv, Nat.le_refl _⟩
    | pair u w => exact ⟨hv, Nat.le_refl _⟩

theorem eval_ok {vars : List Var} {h0 : Heap}
    (hvars : ∀ (x : Nat) (w : Var), vars[x]? = some w → okV h0.length w.val) :
    ∀ (e : Exp) (h h1 : Heap) (t : Ty) (v : V), okH h.length h → h0.length ≤ h.length →
      eval vars h e = some (t, v, h1) → OkR h1 v ∧ h.length ≤ h1.length := by
  intro e
  induction e with
  | int n =>
    intro h h1 t v hh _ he
    simp only [eval, Option.some.injEq, Prod.mk.injEq] at he
    obtain ⟨rfl, rfl, rfl⟩ := he
    exact ⟨⟨hh, trivial⟩, Nat.le_refl _⟩
  | unit =>
    intro h h1 t v hh _ he
    simp only [eval, Option.some.injEq, Prod.mk.injEq] at he
    obtain ⟨rfl, rfl, rfl⟩ := he
    exact ⟨⟨hh, trivial⟩, Nat.le_refl _⟩
  | path p =>
    intro h h1 t v hh h0h he
    simp only [eval] at he
    cases hr : readP ⟨vars, h⟩ p with
    | none => simp [hr] at he
    | some q =>
      obtain ⟨t', v'⟩ := q
      simp only [hr, Option.some.injEq, Prod.mk.injEq] at he
      obtain ⟨rfl, rfl, rfl⟩ := he
      refine ⟨⟨hh, ?_⟩, Nat.le_refl _⟩
      unfold readP at hr
      cases hx : vars[p.root]? with
      | none => simp [hx] at hr
      | some x =>
        cases hs : sels p.steps with
        | none => simp [hx, hs] at hr
        | some ss =>
          simp only [hx, hs] at hr
          exact readV_ok hh ss x.ty x.val t' v' (okV.mono h0h (hvars _ x hx)) hr
  | nil e =>
    intro h h1 t v hh _ he
    simp only [eval, Option.some.injEq, Prod.mk.injEq] at he
    obtain ⟨rfl, rfl, rfl⟩ := he
    refine ⟨⟨?_, ?_⟩, by simp⟩
    · rw [List.length_append, List.length_singleton]
      exact okH.mono (Nat.le_succ _) (hh.add (fresh_ok (by simp)))
    · show h.length < _
      simp
  | snoc a e iha ihe =>
    intro h h3 t v hh h0h he
    simp only [eval] at he
    cases ha : eval vars h a with
    | none => simp [ha] at he
    | some q =>
      obtain ⟨ta, va, h1⟩ := q
      cases ta with
      | int => simp [ha] at he
      | unit => simp [ha] at he
      | pair x y => simp [ha] at he
      | arr t0 =>
        cases va with
        | int n => simp [ha] at he
        | unit => simp [ha] at he
        | pair x y => simp [ha] at he
        | hdl b l =>
          simp only [ha] at he
          cases hw : eval vars h1 e with
          | none => simp [hw] at he
          | some q =>
            obtain ⟨t', w, h2⟩ := q
            simp only [hw] at he
            by_cases ht : t' = t0
            · rw [if_pos ht] at he
              simp only [Option.some.injEq, Prod.mk.injEq] at he
              obtain ⟨rfl, rfl, rfl⟩ := he
              obtain ⟨k1, k2⟩ := iha h h1 _ _ hh h0h ha
              obtain ⟨k3, k4⟩ := ihe h1 h2 _ _ k1.1 (by omega) hw
              refine ⟨⟨?_, ?_⟩, by simp; omega⟩
              · rw [List.length_append, List.length_singleton]
                refine okH.mono (Nat.le_succ _) (k3.1.add ?_)
                intro u hu
                rcases List.mem_append.1 hu with hu | hu
                · exact k3.1.buf b u (List.mem_of_mem_take hu)
                · rw [List.mem_singleton] at hu
                  subst hu
                  exact k3.2
              · show h2.length < _
                simp
            · rw [if_neg ht] at he
              simp at he
  | pair a b iha ihb =>
    intro h h3 t v hh h0h he
    simp only [eval] at he
    cases ha : eval vars h a with
    | none => simp [ha] at he
    | some q =>
      obtain ⟨ta, va, h1⟩ := q
      simp only [ha] at he
      cases hw : eval vars h1 b with
      | none => simp [hw] at he
      | some q =>
        obtain ⟨tb, vb, h2⟩ := q
        simp only [hw, Option.some.injEq, Prod.mk.injEq] at he
        obtain ⟨rfl, rfl, rfl⟩ := he
        obtain ⟨k1, k2⟩ := iha h h1 _ _ hh h0h ha
        obtain ⟨k3, k4⟩ := ihb h1 h2 _ _ k1.1 (by omega) hw
        exact ⟨⟨k3.1, okV.mono k4 k1.2, k3.2⟩, by omega⟩

theorem modV_ok {h : Heap} {upd : Ty → V → Option (V × Heap)} (hh : okH h.length h)
    (hupd : ∀ t v v' h', okV h.length v → upd t v = some (v', h') → OkR h' v' ∧ h.length ≤ h'.length) :
    ∀ (ss : List Sel) (t : Ty) (v v' : V) (h' : Heap), okV h.length v →
      modV upd h t v ss = some (v', h') → OkR h' v' ∧ h.length ≤ h'.length := by
  intro ss
  induction ss with
  | nil =>
    intro t v v' h' hv hm
    have : modV upd h t v [] = upd t v := by cases t <;> cases v <;> rfl
    rw [this] at hm
    exact hupd t v v' h' hv hm
  | cons s r ih =>
    intro t v v' h' hv hm
    cases t with
    | int => cases v <;> cases s <;> simp [modV] at hm
    | unit => cases v <;> cases s <;> simp [modV] at hm
    | pair a b =>
      cases v with
      | int n => cases s <;> simp [modV] at hm
      | unit => cases s <;> simp [modV] at hm
      | hdl c l => cases s <;> simp [modV] at hm
      | pair u w =>
        cases s with
        | idx i => simp [modV] at hm
        | fst =>
          simp only [modV] at hm
          cases hr : modV upd h a u r with
          | none => rw [hr] at hm; simp at hm
          | some q =>
            obtain ⟨u', hu'⟩ := q
            rw [hr] at hm
            simp only [Option.some.injEq, Prod.mk.injEq] at hm
            obtain ⟨rfl, rfl⟩ := hm
            obtain ⟨k1, k2⟩ := ih a u u' hu' hv.1 hr
            exact ⟨⟨k1.1, k1.2, okV.mono k2 hv.2⟩, k2⟩
        | snd =>
          simp only [modV] at hm
          cases hr : modV upd h b w r with
          | none => rw [hr] at hm; simp at hm
          | some q =>
            obtain ⟨u', hu'⟩ := q
            rw [hr] at hm
            simp only [Option.some.injEq, Prod.mk.injEq] at hm
            obtain ⟨rfl, rfl⟩ := hm
            obtain ⟨k1, k2⟩ := ih b w u' hu' hv.2 hr
            exact ⟨⟨k1.1, okV.mono k2 hv.1, k1.2⟩, k2⟩
    | arr e =>
      cases v with
      | int n => cases s <;> simp [modV] at hm
      | unit => cases s <;> simp [modV] at hm
      | pair u w => cases s <;> simp [modV] at hm
      | hdl b l =>
        cases s with
        | fst => simp [modV] at hm
        | snd => simp [modV] at hm
        | idx i =>
          simp only [modV] at hm
          by_cases hil : i < l
          · rw [if_pos hil] at hm
            cases hg : (buf h b)[i]? with
            | none => simp [hg] at hm
            | some x =>
              simp only [hg] at hm
              cases hr : modV upd h e x r with
              | none => simp [hr] at hm
              | some q =>
                obtain ⟨x', h1⟩ := q
                simp only [hr, Option.some.injEq, Prod.mk.injEq] at hm
                obtain ⟨rfl, rfl⟩ := hm
                obtain ⟨k1, k2⟩ := ih e x x' h1 (hh.buf b x (List.mem_of_getElem? hg)) hr
                refine ⟨⟨?_, ?_⟩, by simpa using k2⟩
                · rw [List.length_set]
                  refine k1.1.set (fun u hu => ?_)
                  rcases List.mem_or_eq_of_mem_set hu with h2 | h2
                  · exact k1.1.buf b u h2
                  · subst h2
                    exact k1.2
                · show b < _
                  rw [List.length_set]
                  exact Nat.lt_of_lt_of_le hv k2
          · rw [if_neg hil] at hm
            simp at hm

/-- Every block a state mentions is allocated. -/
def OkS (s : State) : Prop :=
  okH s.heap.length s.heap ∧ ∀ (x : Nat) (w : Var), s.vars[x]? = some w → okV s.heap.length w.val

theorem OkS.add {s : State} (hs : OkS s) {h : Heap} {t : Ty} {m : Bool} {v : V} (hr : OkR h v)
    (hl : s.heap.length ≤ h.length) : OkS ⟨s.vars ++ [⟨t, m, v⟩], h⟩ := by
  refine ⟨hr.1, fun x w hw => ?_⟩
  have := List.mem_of_getElem? hw
  rcases List.mem_append.1 this with h1 | h1
  · obtain ⟨y, hy⟩ := List.mem_iff_getElem?.1 h1
    exact okV.mono hl (hs.2 y w hy)
  · rw [List.mem_singleton] at h1
    subst h1
    exact hr.2

theorem OkS.change {s s' : State} (hs : OkS s) {x : Nat} {ss : List Sel} {h : Heap}
    {upd : Ty → V → Option (V × Heap)} (hh : okH h.length h) (hl : s.heap.length ≤ h.length)
    (hupd : ∀ t v v' h', okV h.length v → upd t v = some (v', h') → OkR h' v' ∧ h.length ≤ h'.length)
    (hc : change s x ss h upd = some s') : OkS s' := by
  unfold Verif.Store.change at hc
  cases hv : s.vars[x]? with
  | none => simp [hv] at hc
  | some v =>
    simp only [hv] at hc
    cases hm : modV upd h v.ty v.val ss with
    | none => simp [hm] at hc
    | some q =>
      obtain ⟨v', h'⟩ := q
      simp only [hm, Option.some.injEq] at hc
      subst hc
      obtain ⟨k1, k2⟩ := modV_ok hh hupd ss v.ty v.val v' h' (okV.mono hl (hs.2 x v hv)) hm
      refine ⟨k1.1, fun y w hw => ?_⟩
      have := List.mem_of_getElem? hw
      rcases List.mem_or_eq_of_mem_set this with h1 | h1
      · obtain ⟨z, hz⟩ := List.mem_iff_getElem?.1 h1
        exact okV.mono (Nat.le_trans hl k2) (hs.2 z w hz)
      · subst h1
        exact k1.2

theorem exec_ok {s s' : State} {c : Stmt} (hs : OkS s) (he : exec s c = some s') : OkS s' := by
  have hev : ∀ e t v h, eval s.vars s.heap e = some (t, v, h) → OkR h v ∧ s.heap.length ≤ h.length :=
    fun e t v h hh => eval_ok hs.2 e s.heap h t v hs.1 (Nat.le_refl _) hh
  cases c with
  | decl top m f t e =>
    simp only [exec] at he
    cases hv : eval s.vars s.heap e with
    | none => simp [hv] at he
    | some q =>
      obtain ⟨t', v, h⟩ := q
      obtain ⟨k1, k2⟩ := hev _ _ _ _ hv
      simp only [hv] at he
      by_cases ht : t' = t
      · rw [if_pos ht] at he
        split at he
        · simp only [Option.some.injEq] at he
          subst he
          obtain ⟨k3, k4⟩ := copy_ok t h v k1
          exact hs.add k3 (by omega)
        · simp only [Option.some.injEq] at he
          subst he
          exact hs.add k1 k2
      · rw [if_neg ht] at he; cases he
  | bind t e =>
    simp only [exec] at he
    cases hv : eval s.vars s.heap e with
    | none => simp [hv] at he
    | some q =>
      obtain ⟨t', v, h⟩ := q
      obtain ⟨k1, k2⟩ := hev _ _ _ _ hv
      simp only [hv] at he
      by_cases ht : t' = t
      · rw [if_pos ht] at he
        simp only [Option.some.injEq] at he
        subst he
        exact hs.add k1 k2
      · rw [if_neg ht] at he; cases he
  | assign p e =>
    simp only [exec] at he
    cases hss : sels p.steps with
    | none => simp [hss] at he
    | some ss =>
      cases hv : eval s.vars s.heap e with
      | none => simp [hss, hv] at he
      | some q =>
        obtain ⟨t', v, h⟩ := q
        obtain ⟨k1, k2⟩ := hev _ _ _ _ hv
        simp only [hss, hv] at he
        have key : ∀ (v1 : V) (h1 : Heap), OkR h1 v1 → s.heap.length ≤ h1.length →
            change s p.root ss h1 (fun t _ => if t' = t then some (v1, h1) else none) = some s' → OkS s' := by
          intro v1 h1 hr1 hl1 hch
          refine hs.change hr1.1 hl1 ?_ hch
          intro t u u' h' _ hu
          by_cases htt : t' = t
          · rw [if_pos htt] at hu
            simp only [Option.some.injEq, Prod.mk.injEq] at hu
            obtain ⟨rfl, rfl⟩ := hu
            exact ⟨hr1, Nat.le_refl _⟩
          · rw [if_neg htt] at hu; cases hu
        split at he
        · obtain ⟨k3, k4⟩ := copy_ok t' h v k1
          exact key _ _ k3 (by omega) he
        · exact key _ _ k1 k2 he
  | incr p =>
    simp only [exec] at he
    cases hss : sels p.steps with
    | none => simp [hss] at he
    | some ss =>
      simp only [hss] at he
      refine hs.change hs.1 (Nat.le_refl _) ?_ he
      intro t u u' h' _ hu
      cases u with
      | int n =>
        simp only [Option.some.injEq, Prod.mk.injEq] at hu
        obtain ⟨rfl, rfl⟩ := hu
        exact ⟨⟨hs.1, trivial⟩, Nat.le_refl _⟩
      | unit => cases hu
      | hdl b l => cases hu
      | pair x y => cases hu
  | append p e =>
    simp only [exec] at he
    cases hss : sels p.steps with
    | none => simp [hss] at he
    | some ss =>
      cases hv : eval s.vars s.heap e with
      | none => simp [hss, hv] at he
      | some q =>
        obtain ⟨t', w, h⟩ := q
        obtain ⟨k1, k2⟩ := hev _ _ _ _ hv
        simp only [hss, hv] at he
        refine hs.change k1.1 k2 ?_ he
        intro t v v' h' hvv hp
        by_cases htt : t = .arr t'
        swap
        · rw [if_neg htt] at hp; cases hp
        rw [if_pos htt] at hp
        subst htt
        cases v with
        | int k => simp [push] at hp
        | unit => simp [push] at hp
        | pair x y => simp [push] at hp
        | hdl b l =>
          simp only [push] at hp
          by_cases hfull : (buf h b).length ≤ l
          · rw [if_pos hfull] at hp
            simp only [Option.some.injEq, Prod.mk.injEq] at hp
            obtain ⟨rfl, rfl⟩ := hp
            refine ⟨⟨?_, ?_⟩, by simp⟩
            · rw [List.length_append, List.length_singleton]
              refine okH.mono (Nat.le_succ _) (k1.1.add ?_)
              intro u hu
              rcases List.mem_append.1 hu with hu | hu
              · exact k1.1.buf b u (List.mem_of_mem_take hu)
              · rcases List.mem_cons.1 hu with rfl | hu
                · exact k1.2
                · rw [List.eq_of_mem_replicate hu]
                  trivial
            · show h.length < _
              simp
          · rw [if_neg hfull] at hp
            simp only [Option.some.injEq, Prod.mk.injEq] at hp
            obtain ⟨rfl, rfl⟩ := hp
            refine ⟨⟨?_, ?_⟩, by simp⟩
            · rw [List.length_set]
              refine k1.1.set (fun u hu => ?_)
              rcases List.mem_or_eq_of_mem_set hu with h2 | h2
              · exact k1.1.buf b u h2
              · subst h2
                exact k1.2
            · show b < _
              rw [List.length_set]
              exact hvv

theorem run_ok : ∀ (cs : List Stmt) (s s' : State), OkS s → run s cs = some s' → OkS s' := by
  intro cs
  induction cs with
  | nil =>
    intro s s' hs hr
    simp only [run, Option.some.injEq] at hr
    subst hr
    exact hs
  | cons c cs ih =>
    intro s s' hs hr
    simp only [run] at hr
    cases h1 : step s c with
    | none => simp [h1] at hr
    | some s1 =>
      simp only [h1] at hr
      exact ih s1 s' (exec_ok hs (step_exec h1).2) hr

theorem init_ok : OkS init := ⟨(fun _ h => by cases h), fun x w h => by simp [init] at h⟩

theorem run_append : ∀ (cs ds : List Stmt) (s s1 s2 : State), run s cs = some s1 → run s1 ds = some s2 →
    run s (cs ++ ds) = some s2 := by
  intro cs
  induction cs with
  | nil =>
    intro ds s s1 s2 h1 h2
    simp only [run, Option.some.injEq] at h1
    subst h1
    exact h2
  | cons c cs ih =>
    intro ds s s1 s2 h1 h2
    simp only [run] at h1
    cases h3 : step s c with
    | none => simp [h3] at h1
    | some s3 =>
      simp only [h3] at h1
      simp only [List.cons_append, run, h3]
      exact ih ds s3 s1 s2 h1 h2

theorem run_flags : ∀ (cs : List Stmt) (s s' : State), run s cs = some s' →
    s.vars.length ≤ s'.vars.length ∧
    ∀ y, y < s.vars.length → (s'.vars[y]?).map Var.mutable = (s.vars[y]?).map Var.mutable := by
  intro cs
  induction cs with
  | nil =>
    intro s s' hr
    simp only [run, Option.some.injEq] at hr
    subst hr
    exact ⟨Nat.le_refl _, fun _ _ => rfl⟩
  | cons c cs ih =>
    intro s s' hr
    simp only [run] at hr
    cases h1 : step s c with
    | none => simp [h1] at hr
    | some s1 =>
      simp only [h1] at hr
      obtain ⟨k1, k2⟩ := exec_vars (step_exec h1).2
      obtain ⟨k3, k4⟩ := ih s1 s' hr
      exact ⟨by omega, fun y hy => by rw [k4 y (by omega), k2 y hy]⟩

/-- The variables declared with `mut`. -/
def Muts (s : State) (x : Nat) : Prop := ∃ v, s.vars[x]? = some v ∧ v.mutable = true

/-- The rule without what the checker itself makes sure of: that assignments to a variable, a field or an element
of it, and `++` and library calls on a variable, are on one declared with `mut`. -/
def okBut (W : Nat → Prop) (vars : List Var) : Stmt → Prop
  | .assign p e => (2 ≤ p.steps.length → W p.root) ∧ (literal vars e ∨ assignCopies p = true)
  | .incr p => p.steps ≠ [] → W p.root
  | .append p e => (p.steps ≠ [] → W p.root) ∧ literal vars e
  | c => okStmt W vars c

def RuleBut (W : Nat → Prop) : State → List Stmt → Prop
  | _, [] => True
  | s, c :: cs => okBut W s.vars c ∧ ∀ s', step s c = some s' → RuleBut W s' cs

theorem syms_muts {s sf : State} (hfl : ∀ y, y < s.vars.length →
      (sf.vars[y]?).map Var.mutable = (s.vars[y]?).map Var.mutable) {x : Nat}
    (h : (syms s.vars x).mutable = true) : Muts sf x := by
  unfold syms at h
  cases hv : s.vars[x]? with
  | none => rw [hv] at h; cases h
  | some v =>
    rw [hv] at h
    have hx : x < s.vars.length := by
      rw [List.getElem?_eq_some_iff] at hv
      exact hv.1
    have h1 := hfl x hx
    rw [hv] at h1
    cases hw : sf.vars[x]? with
    | none => rw [hw] at h1; cases h1
    | some w =>
      rw [hw] at h1
      simp only [Option.map_some, Option.some.injEq] at h1
      exact ⟨w, hw, h1.trans h⟩

theorem syms_pointer (vars : List Var) (x : Nat) : (syms vars x).pointer = false := by
  unfold syms
  split <;> rfl

theorem assignOk_short {vars : List Var} {p : Path} (h : assignOk (syms vars) p = true)
    (hp : p.steps.length ≤ 1) (hs : sels p.steps ≠ none) : (syms vars p.root).mutable = true := by
  unfold assignOk at h
  match hq : p.steps with
  | [] => rw [hq] at h; exact h
  | [.idx i] => rw [hq] at h; exact h
  | [.field k] =>
    rw [hq] at h
    simpa [syms_pointer] using h
  | [.deref] => rw [hq] at hs; exact absurd rfl hs
  | a :: b :: r => rw [hq] at hp; simp at hp

theorem rule_of_but : ∀ (cs : List Stmt) (s sf : State), run s cs = some sf → RuleBut (Muts sf) s cs →
    Rule (Muts sf) s cs := by
  intro cs
  induction cs with
  | nil => intro s sf _ _; trivial
  | cons c cs ih =>
    intro s sf hr hb
    have hfl := (run_flags _ _ _ hr).2
    simp only [run] at hr
    cases h1 : step s c with
    | none => simp [h1] at hr
    | some s1 =>
      simp only [h1] at hr
      obtain ⟨hacc, hex⟩ := step_exec h1
      refine ⟨?_, fun s' hs' => ?_⟩
      · have hb1 := hb.1
        cases c with
        | decl => exact hb1
        | bind => exact hb1
        | assign p e =>
          refine ⟨?_, hb1.2⟩
          by_cases hp : 2 ≤ p.steps.length
          · exact hb1.1 hp
          · refine syms_muts hfl (assignOk_short hacc (by omega) ?_)
            intro hn
            simp [exec, hn] at hex
        | incr p =>
          by_cases hp : p.steps = []
          · refine syms_muts hfl ?_
            simp only [accepts, incrOk, hp] at hacc
            exact hacc
          · exact hb1 hp
        | append p e =>
          refine ⟨?_, hb1.2⟩
          by_cases hp : p.steps = []
          · refine syms_muts hfl ?_
            simp only [accepts, mutatorOk, hp] at hacc
            exact hacc
          · exact hb1.1 hp
      · rw [h1] at hs'
        cases hs'
        exact ih s1 sf hr (hb.2 s1 h1)

/-! ## Examples -/

def ints : List Int → Exp
  | ns => ns.foldl (fun a n => .snoc a (.int n)) (.nil .int)

def arrays (es : List Exp) (t : Ty) : Exp := es.foldl (fun a e => .snoc a e) (.nil t)

def var (x : Nat) : Exp := .path ⟨x, []⟩

def A1 : Ty := .arr .int
def A2 : Ty := .arr (.arr .int)

/-- `struct S { f T }` -/
def S1 (t : Ty) : Ty := .pair t .unit

def mutD (t : Ty) (e : Exp) : Stmt := .decl false true .plain t e
def mutI (t : Ty) (e : Exp) : Stmt := .decl false true .inferred t e

/-- Does the statement, after the program, change a variable that it does not name? -/
def leaks (cs : List Stmt) (c : Stmt) (y : Nat) : Bool :=
  match run init cs with
  | some s => match step s c with
    | some s' => decide (y < s.vars.length ∧ target c ≠ some y ∧ valueOf s' y ≠ valueOf s y)
    | none => false
  | none => false

/-- `mut a [int] = {1, 2}; mut b = a; b[0] = 9` -/
def exInferred : List Stmt := [mutD A1 (ints [1, 2]), mutI A1 (var 0)]

/-- `mut m [[int]] = {{1}}; mut r [int] = m[0]; r[0] = 9` -/
def exIndex : List Stmt := [mutD A2 (arrays [ints [1]] A1), mutD A1 (.path ⟨0, [.idx 0]⟩)]

/-- `mut s S = S{g: {{1}}}; mut g [[int]] = s.g; g[0][0] = 9` -/
def exField : List Stmt := [mutD (S1 A2) (.pair (arrays [ints [1]] A1) .unit),
  mutD A2 (.path ⟨0, [.field 0]⟩)]

/-- `mut o Out = Out{in: In{items: {1}}}; mut x In = o.in; x.items[0] = 9` -/
def exStruct : List Stmt := [mutD (S1 (S1 A1)) (.pair (.pair (ints [1]) .unit) .unit),
  mutD (S1 A1) (.path ⟨0, [.field 0]⟩)]

/-- `mut r [int] = {1}; mut m [[int]] = {{0}}; m[0] = r; r[0] = 9` -/
def exElement : List Stmt := [mutD A1 (ints [1]), mutD A2 (arrays [ints [0]] A1),
  .assign ⟨1, [.idx 0]⟩ (var 0)]

/-- `mut r [int] = {1}; mut m [[int]] = {r}; r[0] = 9` -/
def exLiteral : List Stmt := [mutD A1 (ints [1]), mutD A2 (arrays [var 0] A1)]

/-- `mut r [int] = {1}; mut m [[int]] = {}; arrays.append(m, r); r[0] = 9` -/
def exAppend : List Stmt := [mutD A1 (ints [1]), mutD A2 (.nil A1), .append ⟨1, []⟩ (var 0)]

/-- `mut a [int] = {}; arrays.append(a, 1); mut b = a; arrays.append(a, 2); arrays.append(b, 3)` -/
def exTwice : List Stmt := [mutD A1 (.nil .int), .append ⟨0, []⟩ (.int 1), mutI A1 (var 0),
  .append ⟨0, []⟩ (.int 2)]

/-- `mut a [int] = {1, 2}; const c [int, 2] = a; a[0] = 9` -/
def exSized : List Stmt := [mutD A1 (ints [1, 2]), .decl false false .sized A1 (var 0)]

/-- `mut a [int] = {1, 2}` and `mut b [int] = a` at file scope; `b[0] = 9` -/
def exTop : List Stmt := [.decl true true .plain A1 (ints [1, 2]), .decl true true .plain A1 (var 0)]

def set0 (x : Nat) : Stmt := .assign ⟨x, [.idx 0]⟩ (.int 9)

end Sto

open Sto

/-! ## C228 -/

/-- A statement that writes to one variable leaves the value of every other variable as it is. -/
def C228_statement : Prop :=
  ∀ (cs : List Stmt) (s : State), run init cs = some s → ∀ (c : Stmt) (s' : State), step s c = some s' →
    ∀ y, y < s.vars.length → target c ≠ some y → valueOf s' y = valueOf s y

/-- Ten accepted programs in which a write to one variable changes another: initialised without a written type,
from an element, an array of arrays from a field, a struct from a field; stored in an element, in a
literal, by `arrays.append`; two appends to two names of one array; a constant with a size; at file
scope. -/
theorem C228_witness :
    leaks exInferred (set0 1) 0 = true ∧ leaks exIndex (set0 1) 0 = true ∧
    leaks exField (.assign ⟨1, [.idx 0, .idx 0]⟩ (.int 9)) 0 = true ∧
    leaks exStruct (.assign ⟨1, [.field 0, .idx 0]⟩ (.int 9)) 0 = true ∧
    leaks exElement (set0 0) 1 = true ∧ leaks exLiteral (set0 0) 1 = true ∧
    leaks exAppend (set0 0) 1 = true ∧ leaks exTwice (.append ⟨1, []⟩ (.int 3)) 0 = true ∧
    leaks exSized (set0 0) 1 = true ∧ leaks exTop (set0 1) 0 = true := by
  decide +kernel

theorem C228_fails : ¬ C228_statement := by
  intro h
  have hw := C228_witness.1
  unfold leaks at hw
  cases hr : run init exInferred with
  | none => simp [hr] at hw
  | some s =>
    simp only [hr] at hw
    cases hs : step s (set0 1) with
    | none => simp [hs] at hw
    | some s' =>
      simp only [hs, decide_eq_true_eq] at hw
      exact hw.2.2 (h exInferred s hr (set0 1) s' hs 0 hw.1 hw.2.1)

/-- It holds for programs in which what is stored into a variable that is ever written is built anew (a literal
in which paths are of types without arrays) or copied by the declaration or assignment, and in which other
declarations and parameters take their values only from variables that are never written. What is missing
are the programs that store an array under two names one of which is written. -/
theorem C228_partial (W : Nat → Prop) (cs : List Stmt) (c : Stmt) (s s' : State)
    (rule : Rule W init (cs ++ [c])) (hr : run init cs = some s) (hs : step s c = some s') :
    ∀ y, y < s.vars.length → target c ≠ some y → valueOf s' y = valueOf s y := by
  have aux : ∀ (cs : List Stmt) (a : State), Rule W a (cs ++ [c]) → run a cs = some s →
      Rule W a cs ∧ okStmt W s.vars c := by
    intro cs
    induction cs with
    | nil =>
      intro a ha h1
      simp only [run, Option.some.injEq] at h1
      subst h1
      exact ⟨trivial, ha.1⟩
    | cons d cs ih =>
      intro a ha h1
      simp only [run] at h1
      cases h2 : step a d with
      | none => simp [h2] at h1
      | some b =>
        simp only [h2] at h1
        obtain ⟨k1, k2⟩ := ih b (ha.2 b h2) h1
        refine ⟨⟨ha.1, fun b' hb' => ?_⟩, k2⟩
        rw [h2] at hb'
        cases hb'
        exact k1
  obtain ⟨r1, r2⟩ := aux cs init rule hr
  obtain ⟨inv, _, _⟩ := run_spec cs init s (Inv.init W) r1 hr
  exact (exec_spec inv r2 (step_exec hs).2).2

/-- The copy has the value of what was copied: a declaration gives the new variable the value its initialiser
has, whether it copies or not. -/
theorem C228_value_partial (cs : List Stmt) (s s' : State) (top m : Bool) (f : Form) (t : Ty) (p : Path)
    (hr : run init cs = some s) (hs : step s (.decl top m f t (.path p)) = some s') :
    ∃ v, readP s p = some (t, v) ∧ valueOf s' s.vars.length = some (deep s.heap t v) := by
  have hok := run_ok cs init s init_ok hr
  obtain ⟨_, he⟩ := step_exec hs
  simp only [exec, eval] at he
  cases hp : readP s p with
  | none =>
    have : readP ⟨s.vars, s.heap⟩ p = none := hp
    simp [this] at he
  | some q =>
    obtain ⟨t', v⟩ := q
    have h0 : readP ⟨s.vars, s.heap⟩ p = some (t', v) := hp
    simp only [h0] at he
    by_cases ht : t' = t
    swap
    · rw [if_neg ht] at he; cases he
    subst ht
    rw [if_pos rfl] at he
    refine ⟨v, rfl, ?_⟩
    have hlast : ∀ (w : Var) (h : Heap), valueOf ⟨s.vars ++ [w], h⟩ s.vars.length =
        some (deep h w.ty w.val) := by
      intro w h
      unfold valueOf
      simp
    split at he
    · simp only [Option.some.injEq] at he
      subst he
      rw [hlast]
      simp only
      rw [copy_deep]
      intro b hb
      obtain ⟨_, x, hx, hsub⟩ := readP_spec h0
      exact foot_ok hok.1 x.ty x.val (hok.2 _ x hx) b (hsub b hb)
    · simp only [Option.some.injEq] at he
      subst he
      rw [hlast]

/-- Programs that follow the rule: a copy of an array of arrays, of a field, and by assignment, and writes to
both sides. -/
def tidy : List Stmt := [mutD A2 (arrays [ints [1], ints [2]] A1), mutD A2 (var 0),
  mutD (S1 A1) (.pair (ints [3]) .unit), mutD A1 (.path ⟨2, [.field 0]⟩),
  .assign ⟨1, []⟩ (var 0), .append ⟨3, []⟩ (.path ⟨0, [.idx 0, .idx 0]⟩),
  .assign ⟨1, [.idx 0, .idx 0]⟩ (.int 9)]

example : (run init tidy).isSome = true ∧
    ((run init tidy).bind fun s => valueOf s 0) =
      some (.cons (.cons (.int 1) .nil) (.cons (.cons (.int 2) .nil) .nil)) ∧
    ((run init tidy).bind fun s => valueOf s 1) =
      some (.cons (.cons (.int 9) .nil) (.cons (.cons (.int 2) .nil) .nil)) ∧
    ((run init tidy).bind fun s => valueOf s 3) = some (.cons (.int 3) (.cons (.int 1) .nil)) := by
  decide +kernel

/-- The rule is met by a copy of a variable that is written itself. -/
example : Rule (fun x => x = 0 ∨ x = 1) init
    [mutD A1 (ints [1]), mutD A1 (var 0), set0 1, .append ⟨0, []⟩ (.path ⟨1, [.idx 0]⟩)] ↔ True := by
  refine ⟨fun _ => trivial, fun _ => ⟨Or.inl ⟨trivial, trivial⟩, fun s1 h1 => ⟨Or.inr (Or.inl rfl),
    fun s2 h2 => ⟨⟨Or.inr rfl, Or.inl trivial⟩, fun s3 h3 => ⟨⟨Or.inl rfl, ?_⟩, fun _ _ => trivial⟩⟩⟩⟩⟩
  intro t ht
  have e1 : (run init [mutD A1 (ints [1]), mutD A1 (var 0), set0 1]).map (fun s => pathTy s.vars ⟨1, [.idx 0]⟩) =
      some (some .int) := by decide +kernel
  have e2 : run init [mutD A1 (ints [1]), mutD A1 (var 0), set0 1] = some s3 := by
    simp only [run, h1, h2, h3]
  rw [e2] at e1
  simp only [Option.map_some, Option.some.injEq] at e1
  rw [ht] at e1
  cases e1
  rfl

/-! ## C229 -/

/-- A variable that is not declared with `mut` keeps its value. -/
def C229_statement : Prop :=
  ∀ (cs ds : List Stmt) (s s' : State), run init cs = some s → run s ds = some s' →
    ∀ (y : Nat) (v : Var), s.vars[y]? = some v → v.mutable = false → valueOf s' y = valueOf s y

/-- Does the program `ds` after `cs` change variable `y`, which is not mutable? -/
def Sto.mutates (cs ds : List Stmt) (y : Nat) : Bool :=
  match run init cs with
  | some s => match run s ds, s.vars[y]? with
    | some s', some v => !v.mutable && decide (valueOf s' y ≠ valueOf s y)
    | _, _ => false
  | none => false

/-- `const g [[int], 2] = {{1}, {2}}` then `g[0][0] = 9`; an array of structs and `c[0].x = 9`, `c[0].x++`; an
array of arrays and `arrays.append(g[0], 9)`; a parameter with an array field and `p.items[0] = 9`; a
constant with the array of a variable, which is written; a variable with the array of a constant, which
is written. -/
theorem C229_witness :
    mutates [.decl false false .sized A2 (arrays [ints [1], ints [2]] A1)]
      [.assign ⟨0, [.idx 0, .idx 0]⟩ (.int 9)] 0 = true ∧
    mutates [.decl false false .sized (.arr (S1 .int)) (arrays [.pair (.int 1) .unit] (S1 .int))]
      [.assign ⟨0, [.idx 0, .field 0]⟩ (.int 9)] 0 = true ∧
    mutates [.decl false false .sized (.arr (S1 .int)) (arrays [.pair (.int 1) .unit] (S1 .int))]
      [.incr ⟨0, [.idx 0, .field 0]⟩] 0 = true ∧
    mutates [.decl false false .sized A1 (ints [1, 2])] [.incr ⟨0, [.idx 0]⟩] 0 = true ∧
    mutates [.decl false false .sized A2 (arrays [ints [1], ints [2]] A1)]
      [.append ⟨0, [.idx 0]⟩ (.int 9)] 0 = true ∧
    mutates [mutD (S1 A1) (.pair (ints [1]) .unit), .bind (S1 A1) (var 0)]
      [.assign ⟨1, [.field 0, .idx 0]⟩ (.int 9)] 1 = true ∧
    mutates exSized [set0 0] 1 = true ∧
    mutates [.decl false false .sized A1 (ints [1, 2])] [mutI A1 (var 0), set0 1] 0 = true := by
  decide +kernel

theorem C229_fails : ¬ C229_statement := by
  intro h
  have hw := C229_witness.1
  unfold mutates at hw
  generalize [Stmt.decl false false .sized A2 (arrays [ints [1], ints [2]] A1)] = cs at hw
  generalize [Stmt.assign ⟨0, [.idx 0, .idx 0]⟩ (.int 9)] = ds at hw
  cases hr : run init cs with
  | none => simp [hr] at hw
  | some s =>
    simp only [hr] at hw
    cases hs : run s ds with
    | none => simp [hs] at hw
    | some s' =>
      cases hv : s.vars[0]? with
      | none => simp [hs, hv] at hw
      | some v =>
        simp only [hs, hv, Bool.and_eq_true, Bool.not_eq_true', decide_eq_true_eq] at hw
        exact hw.2 (h cs ds s s' hr hs 0 v hv hw.1)

/-- It holds for programs in which assignments to paths of two and more steps, and `++` and library calls on
paths of one and more, are on variables declared with `mut` (for the shorter ones the checker sees to it), and
which follow the rule of `C228_partial` for the variables declared with `mut`. -/
theorem C229_partial (cs ds : List Stmt) (s s' : State) (hr : run init cs = some s)
    (hr' : run s ds = some s') (rule : RuleBut (Muts s') init (cs ++ ds)) :
    ∀ (y : Nat) (v : Var), s.vars[y]? = some v → v.mutable = false → valueOf s' y = valueOf s y := by
  intro y v hv hm
  have r := rule_of_but _ _ _ (run_append cs ds init s s' hr hr') rule
  have aux : ∀ (cs : List Stmt) (a : State), Rule (Muts s') a (cs ++ ds) → run a cs = some s →
      Rule (Muts s') a cs ∧ Rule (Muts s') s ds := by
    intro cs
    induction cs with
    | nil =>
      intro a ha h1
      simp only [run, Option.some.injEq] at h1
      subst h1
      exact ⟨trivial, ha⟩
    | cons d cs ih =>
      intro a ha h1
      simp only [run] at h1
      cases h2 : step a d with
      | none => simp [h2] at h1
      | some b =>
        simp only [h2] at h1
        obtain ⟨k1, k2⟩ := ih b (ha.2 b h2) h1
        refine ⟨⟨ha.1, fun b' hb' => ?_⟩, k2⟩
        rw [h2] at hb'
        cases hb'
        exact k1
  obtain ⟨r1, r2⟩ := aux cs init r hr
  obtain ⟨inv, _, _⟩ := run_spec cs init s (Inv.init _) r1 hr
  have hy : y < s.vars.length := by
    rw [List.getElem?_eq_some_iff] at hv
    exact hv.1
  refine (run_spec ds s s' inv r2 hr').2.2 y hy (fun c hc ht => ?_)
  obtain ⟨w, hw, hwm⟩ := rule_target ds s s' r2 hr' c hc y ht
  have hfl := (run_flags ds s s' hr').2 y hy
  rw [hw, hv] at hfl
  simp only [Option.map_some, Option.some.injEq] at hfl
  rw [hwm, hm] at hfl
  cases hfl

/-- A constant, a copy of a variable of arrays, and writes of any depth to the variables. -/
def tidyConst : List Stmt := [.decl false false .sized A1 (ints [1, 2]), mutD A2 (arrays [ints [3]] A1),
  mutD A2 (var 1), .assign ⟨1, [.idx 0, .idx 0]⟩ (.path ⟨0, [.idx 0]⟩), .incr ⟨2, [.idx 0, .idx 0]⟩]

example : ((run init tidyConst).bind fun s => valueOf s 0) = some (.cons (.int 1) (.cons (.int 2) .nil)) ∧
    ((run init tidyConst).bind fun s => valueOf s 1) = some (.cons (.cons (.int 1) .nil) .nil) ∧
    ((run init tidyConst).bind fun s => valueOf s 2) = some (.cons (.cons (.int 4) .nil) .nil) := by
  decide +kernel

/-! ## C230 -/

/-- A function changes none of its caller's variables through parameters without `&`: statements that write
only to variables declared after the call leave the others as they are. -/
def C230_statement : Prop :=
  ∀ (cs ds : List Stmt) (s s' : State), run init cs = some s → run s ds = some s' →
    (∀ c ∈ ds, ∀ x, target c = some x → s.vars.length ≤ x) →
    ∀ y, y < s.vars.length → valueOf s' y = valueOf s y

/-- `do f(p S) { p.items[0] = 9 }`, `do f(g [[int]]) { g[0][0] = 9 }`, `do f(a [int]) { mut b = a; b[0] = 9 }`
and `do f(a [int]) { a[0]++ }`. -/
theorem C230_witness :
    let change (cs ds : List Stmt) : Bool := match run init cs with
      | some s => match run s ds with
        | some s' => decide (valueOf s' 0 ≠ valueOf s 0) &&
            ds.all fun c => match target c with
              | some x => decide (s.vars.length ≤ x)
              | none => true
        | none => false
      | none => false
    change [mutD (S1 A1) (.pair (ints [1]) .unit)]
      [.bind (S1 A1) (var 0), .assign ⟨1, [.field 0, .idx 0]⟩ (.int 9)] = true ∧
    change [mutD A2 (arrays [ints [1]] A1)]
      [.bind A2 (var 0), .assign ⟨1, [.idx 0, .idx 0]⟩ (.int 9)] = true ∧
    change [mutD A1 (ints [1])] [.bind A1 (var 0), mutI A1 (var 1), set0 2] = true ∧
    change [mutD A1 (ints [1])] [.bind A1 (var 0), .incr ⟨1, [.idx 0]⟩] = true := by
  decide +kernel

theorem C230_fails : ¬ C230_statement := by
  intro h
  have hw := C230_witness.1
  simp only at hw
  generalize hcs : [mutD (S1 A1) (.pair (ints [1]) .unit)] = cs at hw
  generalize [Stmt.bind (S1 A1) (var 0), .assign ⟨1, [.field 0, .idx 0]⟩ (.int 9)] = ds at hw
  cases hr : run init cs with
  | none => simp [hr] at hw
  | some s =>
    simp only [hr] at hw
    cases hs : run s ds with
    | none => simp [hs] at hw
    | some s' =>
      simp only [hs, Bool.and_eq_true, decide_eq_true_eq, List.all_eq_true] at hw
      refine hw.1 (h cs ds s s' hr hs ?_ 0 ?_)
      · intro c hc x hx
        have := hw.2 c hc
        rw [hx] at this
        exact of_decide_eq_true this
      · subst hcs
        have : (run init [mutD (S1 A1) (.pair (ints [1]) .unit)]).map (fun s => s.vars.length) = some 1 := by
          decide +kernel
        rw [hr] at this
        simp only [Option.map_some, Option.some.injEq] at this
        omega

/-- It holds, whatever the caller has done before, for functions that follow the rule of `C228_partial` for a set of
their own variables: parameters are never written, nor variables that share with them; what is written is
built anew or copied. -/
theorem C230_partial (W : Nat → Prop) (cs ds : List Stmt) (s s' : State) (hr : run init cs = some s)
    (hr' : run s ds = some s') (hW : ∀ x, W x → s.vars.length ≤ x) (rule : Rule W s ds) :
    ∀ y, y < s.vars.length → valueOf s' y = valueOf s y := by
  have hok := run_ok cs init s init_ok hr
  have hlt : ∀ (x : Nat) (v : Var), s.vars[x]? = some v → x < s.vars.length := by
    intro x v hv
    rw [List.getElem?_eq_some_iff] at hv
    exact hv.1
  have inv : Inv W s := by
    refine ⟨fun x v hv => foot_ok hok.1 v.ty v.val (hok.2 x v hv), ?_, ?_⟩
    · intro x v hx hv
      have := hW x hx
      have := hlt x v hv
      omega
    · intro x y v w hx _ hv
      have := hW x hx
      have := hlt x v hv
      omega
  intro y hy
  refine (run_spec ds s s' inv rule hr').2.2 y hy (fun c hc ht => ?_)
  have := hW y (rule_target ds s s' rule hr' c hc y ht)
  omega

example : ((run init [mutD A1 (ints [1]), .bind A1 (var 0), mutD A1 (var 1), set0 2]).bind
    fun s => valueOf s 0) = some (.cons (.int 1) .nil) := by
  decide +kernel

/-! ## C231 -/

/-- The path stays within the variable: it does not go through a pointer. -/
def Sto.Direct (sym : Nat → Sym) (p : Path) : Prop :=
  .deref ∉ p.steps ∧ ((sym p.root).pointer = false ∨ p.steps = [])

/-- The six checks accept a path within a variable only if the variable is declared with `mut`. -/
def C231_statement : Prop :=
  ∀ (sym : Nat → Sym) (p : Path), Direct sym p →
    (assignOk sym p = true → (sym p.root).mutable = true) ∧
    (incrOk sym p = true → (sym p.root).mutable = true) ∧
    (mutatorOk sym p = true → (sym p.root).mutable = true) ∧
    (refArgOk sym p = true → (sym p.root).mutable = true) ∧
    (refOk sym p = true → (sym p.root).mutable = true) ∧
    (addrOk sym p = true → (sym p.root).mutable = true)

/-- `c.a.b = 1`, `c.a[0] = 1`, `c[0].a = 1`, `c[0][0] = 1`; `c.a++`; `arrays.append(c.a, 1)`; `f(c.a)` for a `&`
parameter; `mut r = ref(c.a)`. -/
theorem C231_witness (k i j : Nat) :
    let sym : Nat → Sym := fun _ => ⟨false, false⟩
    assignOk sym ⟨0, [.field k, .field i]⟩ = true ∧ assignOk sym ⟨0, [.field k, .idx i]⟩ = true ∧
    assignOk sym ⟨0, [.idx k, .field i]⟩ = true ∧ assignOk sym ⟨0, [.idx i, .idx j]⟩ = true ∧
    incrOk sym ⟨0, [.field k]⟩ = true ∧ mutatorOk sym ⟨0, [.field k]⟩ = true ∧
    refArgOk sym ⟨0, [.field k]⟩ = true ∧ refOk sym ⟨0, [.field k]⟩ = true := by
  exact ⟨rfl, rfl, rfl, rfl, rfl, rfl, rfl, rfl⟩

theorem C231_fails : ¬ C231_statement := by
  intro h
  have := (h (fun _ => ⟨false, false⟩) ⟨0, [.field 0, .field 0]⟩ ⟨by simp, Or.inl rfl⟩).1 rfl
  cases this

/-- Exactly which paths within a variable that is not declared with `mut` are refused: by the assignment check
those of at most one step, by `addr` all, by the other checks the variable itself. No check refuses a path of a
variable declared with `mut`. -/
theorem C231_partial (sym : Nat → Sym) (p : Path) :
    ((sym p.root).mutable = true → assignOk sym p = true ∧ incrOk sym p = true ∧ mutatorOk sym p = true ∧
      refArgOk sym p = true ∧ refOk sym p = true ∧ addrOk sym p = true) ∧
    (Direct sym p → (sym p.root).mutable = false →
      (assignOk sym p = false ↔ p.steps.length ≤ 1) ∧ (incrOk sym p = false ↔ p.steps = []) ∧
      (mutatorOk sym p = false ↔ p.steps = []) ∧ (refArgOk sym p = false ↔ p.steps = []) ∧
      (refOk sym p = false ↔ p.steps = []) ∧ addrOk sym p = false) := by
  obtain ⟨r, ss⟩ := p
  constructor
  · intro h
    simp only at h
    refine ⟨?_, ?_, ?_, ?_, ?_, ?_⟩
    · unfold assignOk
      split <;> simp_all
    · unfold incrOk
      split <;> simp_all
    · unfold mutatorOk
      split <;> simp_all
    · unfold refArgOk
      split <;> simp_all
    · unfold refOk
      split <;> simp_all
    · unfold addrOk
      split <;> simp_all
  · rintro ⟨hd, hp⟩ hm
    simp only at hd hp hm
    have hone : ∀ (f : (Nat → Sym) → Path → Bool), (∀ p, f sym p =
        match p.steps with
        | [] => (sym p.root).mutable
        | _ => true) → (f sym ⟨r, ss⟩ = false ↔ ss = []) := by
      intro f hf
      rw [hf]
      cases ss with
      | nil => simp [hm]
      | cons a b => simp
    refine ⟨?_, hone _ (fun _ => rfl), hone _ (fun _ => rfl), hone _ (fun _ => rfl), hone _ (fun _ => rfl), ?_⟩
    · unfold assignOk
      match ss with
      | [] => simp [hm]
      | [.idx i] => simp [hm]
      | [.field k] =>
        rcases hp with hp | hp
        · simp [hm, hp]
        · cases hp
      | [.deref] => simp at hd
      | a :: b :: t => simp
    · unfold addrOk
      rw [if_neg hd]
      exact hm

example : Direct (fun _ => ⟨true, false⟩) ⟨0, [.field 0, .idx 2]⟩ ∧
    assignOk (fun _ => ⟨false, false⟩) ⟨0, [.field 0]⟩ = false ∧
    addrOk (fun _ => ⟨false, false⟩) ⟨0, [.field 0, .idx 2, .field 1]⟩ = false := by
  refine ⟨⟨by simp, Or.inl rfl⟩, rfl, by decide⟩

end Verif.Props
