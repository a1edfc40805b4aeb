import Verif.Props.TypeView

/-!
# Wildcards

A generic function has `?` in the types of its parameters; a call binds it to a type found in the argument's type.
-/

namespace Verif.Props

open TypeName Str Tn Tv

namespace Wc

mutual
/-- A type with `?` replaced. -/
def inst (v : Ty) : Ty → Ty
  | .wild => v
  | .name s => .name s
  | .qual m s => .qual m s
  | .arr e => .arr (inst v e)
  | .fixed e n b => .fixed (inst v e) n b
  | .map b k w => .map b (inst v k) (inst v w)
  | .ptr t => .ptr (inst v t)
  | .func ps r => .func (instP v ps) (instR v r)
def instP (v : Ty) : Tys → Tys
  | .nil => .nil
  | .cons mu t ts => .cons mu (inst v t) (instP v ts)
def instR (v : Ty) : Ret → Ret
  | .none => .none
  | .one t => .one (inst v t)
  | .many t ts => .many (inst v t) (instP v ts)
end

mutual
/-- Whether there is a `?`. -/
def wilds : Ty → Bool
  | .wild => true
  | .name _ => false
  | .qual _ _ => false
  | .arr e => wilds e
  | .fixed e _ _ => wilds e
  | .map _ k w => wilds k || wilds w
  | .ptr t => wilds t
  | .func ps r => wildsP ps || wildsR r
def wildsP : Tys → Bool
  | .nil => false
  | .cons _ t ts => wilds t || wildsP ts
def wildsR : Ret → Bool
  | .none => false
  | .one t => wilds t
  | .many t ts => wilds t || wildsP ts
end

end Wc

open Wc

/-- What a wildcard is bound to is a type, and makes the parameter's type the argument's. -/
def C146_statement : Prop :=
  ∀ t u, Wf t → Wf u → ∀ c, bindWildcard (text t) (text u) = some c → ∃ v, Wf v ∧ text v = c ∧ text (inst v t) = text u

/-- If an argument's type is the parameter's with a type for the wildcard, that type is found. -/
def C147_statement : Prop :=
  ∀ t v, Wf t → Wf v → wilds t = true → text v ≠ lit "unknown" → bindWildcard (text t) (text (inst v t)) = some (text v)

namespace Wc

/-! ## Keys and values -/

theorem keyLen_byte {c : Byte} (h1 : c ≠ ch '[') (h2 : c ≠ ch ']') (h3 : c ≠ ch ':') (d : Int) (r : Str) :
    keyLen d (c :: r) = (keyLen d r).map (· + 1) := by
  rw [keyLen, if_neg (fun h => h2 h.2), if_neg h1, if_neg h2, if_neg (fun h => h3 h.1)]

theorem map_add (o : Option Nat) (a b : Nat) : (o.map (· + b)).map (· + a) = o.map (· + (a + b)) := by
  cases o <;> simp; omega

theorem keyLen_bal {a b s} (h : Bal a b s) : ∀ (d : Int) (r : Str), 0 ≤ d → (b = true → 1 ≤ d) →
    keyLen d (s ++ r) = (keyLen d r).map (· + s.length) := by
  induction h with
  | nil => intro d r _ _; simp
  | byte h =>
    intro d r _ _
    have := not_special h
    exact keyLen_byte this.2.2.1 this.2.2.2.1 this.2.2.2.2.2 d r
  | @app _ _ s t _ _ ih1 ih2 =>
    intro d r h0 h1
    rw [List.append_assoc, ih1 _ _ h0 h1, ih2 _ _ h0 h1, map_add, List.length_append]
  | comma => intro d r _ _; exact keyLen_byte (by decide) (by decide) (by decide) d r
  | colon =>
    intro d r _ h1
    have := h1 rfl
    show keyLen d (ch ':' :: r) = _
    rw [keyLen, if_neg (by omega), if_neg (by decide), if_neg (by decide), if_neg (by omega)]
    rfl
  | @paren _ _ s _ ih =>
    intro d r h0 h1
    have e : (ch '(' :: s ++ [ch ')']) ++ r = ch '(' :: (s ++ ch ')' :: r) := by simp
    rw [e, keyLen_byte (by decide) (by decide) (by decide), ih _ _ h0 h1, keyLen_byte (by decide) (by decide) (by decide), map_add, map_add]
    have : 1 + (s.length + 1) = (ch '(' :: s ++ [ch ')']).length := by simp; omega
    rw [← this, Nat.add_assoc]
  | @brack _ _ s _ ih =>
    intro d r h0 _
    have e : (ch '[' :: s ++ [ch ']']) ++ r = ch '[' :: (s ++ ch ']' :: r) := by simp
    have e2 : d + 1 - 1 = d := by omega
    rw [e, keyLen, if_neg (by rintro ⟨-, h⟩; exact absurd h (by decide)), if_pos rfl, ih _ _ (by omega) (fun _ => by omega), keyLen,
      if_neg (by omega), if_neg (by decide), if_pos rfl, e2, map_add, map_add]
    have : 1 + (s.length + 1) = (ch '[' :: s ++ [ch ']']).length := by simp; omega
    rw [← this, Nat.add_assoc]

theorem map_text (b : Bool) (k v : Ty) : text (.map b k v) = lit "map[" ++ (text k ++ ch ':' :: (text v ++ [ch ']'])) := by
  rw [text]; simp [lit, ch]

theorem last_snoc (s : Str) (c : Byte) : (s ++ [c]).getLast? = some c := by rw [List.getLast?_append]; rfl

theorem keyValue_text (b : Bool) (k v : Ty) (hk : Wf k) : keyValue (text (.map b k v)) = some (text k, text v) := by
  have h4 : (lit "map[" ++ (text k ++ ch ':' :: (text v ++ [ch ']']))).drop 4 = text k ++ ch ':' :: (text v ++ [ch ']']) := rfl
  have hl : keyLen 0 (text k ++ ch ':' :: (text v ++ [ch ']'])) = some (text k).length := by
    rw [keyLen_bal (bal_text k hk) 0 _ (by omega) (by simp), keyLen, if_neg (by rintro ⟨-, h⟩; exact absurd h (by decide)),
      if_neg (by decide), if_neg (by decide), if_pos ⟨rfl, rfl⟩]
    simp
  have hlast : (lit "map[" ++ (text k ++ ch ':' :: (text v ++ [ch ']']))).getLast? = some (ch ']') := by
    have : lit "map[" ++ (text k ++ ch ':' :: (text v ++ [ch ']'])) = (lit "map[" ++ text k ++ ch ':' :: text v) ++ [ch ']'] := by simp
    rw [this, last_snoc]
  have hd : (text k ++ ch ':' :: (text v ++ [ch ']'])).drop ((text k).length + 1) = text v ++ [ch ']'] := by
    have : text k ++ ch ':' :: (text v ++ [ch ']']) = (text k ++ [ch ':']) ++ (text v ++ [ch ']']) := by simp
    rw [this, List.drop_left' (by simp)]
  rw [map_text, keyValue, if_pos (show (lit "map[" ++ _).take 4 = lit "map[" from rfl), h4, hl]
  show (if _ then some (_, _) else none) = _
  rw [if_pos hlast, hd, List.dropLast_concat, List.take_left']
  rfl

/-! ## The two ways in -/

theorem wild_iff (t : Ty) (h : Wf t) : text t = lit "?" ↔ t = .wild := by
  constructor
  · intro e
    match t, h, e with
    | .wild, _, _ => rfl
    | .name s, h, e =>
      rw [Wf] at h
      rw [text] at e
      exact absurd (by decide) (word_not (ch '?') (h.2 _ (by rw [e]; decide)))
    | .qual m s, h, e =>
      rw [text] at e
      have := congrArg List.length e
      rw [Wf] at h
      have h1 := List.length_pos_iff.2 h.1.1
      simp [lit] at this
      omega
    | .arr e', _, e => rw [text] at e; exact absurd (List.cons.inj e).1 (by decide)
    | .fixed e' n b, _, e => rw [text] at e; exact absurd (List.cons.inj e).1 (by decide)
    | .map b k v, _, e => rw [text] at e; exact absurd (List.cons.inj e).1 (by decide)
    | .ptr t, _, e => rw [text] at e; exact absurd (List.cons.inj e).1 (by decide)
    | .func ps r, _, e => rw [text] at e; exact absurd (List.cons.inj e).1 (by decide)
  · rintro rfl
    rw [text]

theorem bracketed_cons (c : Byte) (s : Str) : bracketed (c :: s) = true ↔ c = ch '[' := by
  show decide ([c] = lit "[") = true ↔ _
  simp [lit]

theorem word_head {s : Str} (h : Word s) : ∃ c r, s = c :: r ∧ c ∉ lit "([^?.:," := by
  obtain ⟨c, r, rfl⟩ := List.exists_cons_of_ne_nil h.1
  exact ⟨c, r, rfl, word_not c (h.2 c (by simp))⟩

/-- The types whose text begins with a bracket. -/
theorem bracketed_text (t : Ty) (h : Wf t) (hb : bracketed (text t) = true) : (∃ e, t = .arr e) ∨ ∃ e n b, t = .fixed e n b := by
  match t, h, hb with
  | .wild, _, hb => rw [text] at hb; exact absurd hb (by decide)
  | .name s, h, hb =>
    rw [Wf] at h
    obtain ⟨c, r, rfl, hc⟩ := word_head h
    rw [text, bracketed_cons] at hb
    rw [hb] at hc
    exact absurd (by decide) hc
  | .qual m s, h, hb =>
    rw [Wf] at h
    obtain ⟨c, r, rfl, hc⟩ := word_head h.1
    rw [text] at hb
    have := (bracketed_cons _ _).1 hb
    rw [this] at hc
    exact absurd (by decide) hc
  | .arr e, _, _ => exact .inl ⟨e, rfl⟩
  | .fixed e n b, _, _ => exact .inr ⟨e, n, b, rfl⟩
  | .map b k v, _, hb => rw [text] at hb; exact absurd ((bracketed_cons _ _).1 hb) (by decide)
  | .ptr t, _, hb => rw [text] at hb; exact absurd ((bracketed_cons _ _).1 hb) (by decide)
  | .func ps r, _, hb => rw [text] at hb; exact absurd ((bracketed_cons _ _).1 hb) (by decide)

theorem word_map {s : Str} (h : ∀ c ∈ s, (isAlnum c || c == ch '_') = true) : ¬ (s.take 4 = lit "map[") := fun e =>
  word_not (ch '[') (h _ (List.mem_of_mem_take (i := 4) (by rw [e]; decide))) (by decide)

/-- The types whose text begins with `map[`. -/
theorem map_of_text (t : Ty) (h : Wf t) (hb : (text t).take 4 = lit "map[") : ∃ b k v, t = .map b k v := by
  match t, h, hb with
  | .wild, _, hb => rw [text] at hb; exact absurd hb (by decide)
  | .name s, h, hb => rw [Wf] at h; rw [text] at hb; exact absurd hb (word_map h.2)
  | .qual m s, h, hb =>
    rw [Wf] at h
    rw [text] at hb
    refine absurd hb (word_map fun c hc => ?_)
    simp only [List.mem_append] at hc
    rcases hc with (hc | hc) | hc
    · exact h.1.2 c hc
    · have : c = ch '_' := by simpa [lit] using hc
      subst this
      decide
    · exact h.2.2 c hc
  | .arr e, _, hb => rw [text] at hb; exact absurd hb (take_ne (by decide))
  | .fixed e n b, _, hb => rw [text] at hb; exact absurd hb (take_ne (by decide))
  | .map b k v, _, _ => exact ⟨b, k, v, rfl⟩
  | .ptr t, _, hb => rw [text] at hb; exact absurd hb (take_ne (by decide))
  | .func ps r, _, hb => rw [text] at hb; exact absurd hb (take_ne (by decide))

/-- Nothing is bound in a text that ends with no bracket, but for `?` itself. -/
theorem bind_last (n : Nat) (p a : Str) (h1 : p ≠ lit "?") (h2 : p.getLast? ≠ some (ch ']')) : bind n p a = none := by
  cases n with
  | zero => rfl
  | succ n =>
    have hk : keyValue p = none := by
      rw [keyValue]
      by_cases h : p.take 4 = lit "map["
      · rw [if_pos h]
        split
        · rfl
        · rw [if_neg h2]
      · rw [if_neg h]
    rw [TypeName.bind, if_neg h1]
    by_cases h : (bracketed p && bracketed a) = true
    · rw [if_pos h]
      by_cases h3 : p.length < 3 ∨ a.length < 3
      · rw [if_pos h3]
      · rw [if_neg h3, if_pos (.inl h2)]
    · rw [if_neg h, hk]
      by_cases h4 : p.take 4 = lit "map[" ∧ a.take 4 = lit "map["
      · rw [if_pos h4]
      · rw [if_neg h4]

theorem bind_arr (n : Nat) (p a : Str) (hp : p ≠ []) (ha : a ≠ []) :
    bind (n + 1) (lit "[" ++ p ++ lit "]") (lit "[" ++ a ++ lit "]") = bind n p a := by
  have hp' := List.length_pos_iff.2 hp
  have ha' := List.length_pos_iff.2 ha
  have hl : ∀ s : Str, (lit "[" ++ s ++ lit "]").getLast? = some (ch ']') := fun s => last_snoc _ _
  have hd : ∀ s : Str, ((lit "[" ++ s ++ lit "]").drop 1).dropLast = s := fun s => by
    show (s ++ [ch ']']).dropLast = s
    rw [List.dropLast_concat]
  have hb : ∀ s : Str, bracketed (lit "[" ++ s ++ lit "]") = true := fun s => rfl
  have h1 : lit "[" ++ p ++ lit "]" ≠ lit "?" := fun e => absurd (List.cons.inj e).1 (by decide)
  rw [TypeName.bind, if_neg h1, hb, hb]
  simp only [Bool.and_self, if_true]
  rw [if_neg (by simp [lit]; omega), hl, hl, if_neg (by simp), hd, hd]

theorem bind_map (n : Nat) (p a pk pv ak av : Str) (h1 : p ≠ lit "?") (hb : bracketed p = false) (hp : p.take 4 = lit "map[")
    (ha : a.take 4 = lit "map[") (kp : keyValue p = some (pk, pv)) (ka : keyValue a = some (ak, av)) :
    bind (n + 1) p a =
      if !hasWild pk && !hasWild pv then none
      else if !hasWild pk && ak != pk then none
      else if !hasWild pv && av != pv then none
      else if hasWild pk && hasWild pv && ak != av then none
      else if hasWild pk then bind n pk ak
      else bind n pv av := by
  rw [TypeName.bind, if_neg h1, hb, Bool.false_and, if_neg (by simp), if_pos ⟨hp, ha⟩, kp, ka]

/-- Where the type of a parameter and of an argument part: an array against an array with a size. -/
def Fits : Ty → Ty → Prop
  | .arr e, .arr f => Fits e f
  | .arr _, .fixed _ _ _ => False
  | .map _ k v, .map _ k' v' => Fits k k' ∧ Fits v v'
  | _, _ => True

/-- No map with a wildcard key has a wildcard inside its value. -/
def Sound : Ty → Prop
  | .arr e => Sound e
  | .map _ k v => Sound v ∧ (wilds k = true → wilds v = true → v = .wild)
  | _ => True

theorem hasWild_append (s t : Str) : hasWild (s ++ t) = (hasWild s || hasWild t) := List.any_append

theorem hasWild_word {s : Str} (h : Word s) : hasWild s = false := by
  rw [hasWild, List.any_eq_false]
  intro c hc
  simp only [isWild, beq_iff_eq]
  rintro rfl
  exact word_not _ (h.2 _ hc) (by decide)

mutual
theorem hasWild_text : ∀ t : Ty, Wf t → hasWild (text t) = wilds t
  | .wild, _ => by rw [text, wilds]; rfl
  | .name s, h => by rw [Wf] at h; rw [text, wilds, hasWild_word h]
  | .qual m s, h => by
    rw [Wf] at h
    rw [text, hasWild_append, hasWild_append, hasWild_word h.1, hasWild_word h.2, wilds]; rfl
  | .arr e, h => by
    rw [Wf] at h
    rw [text, hasWild_append, hasWild_append, hasWild_text e h.1, wilds]
    show (false || wilds e || false) = _
    simp
  | .fixed e n b, h => by
    rw [Wf] at h
    rw [text, hasWild_append, hasWild_append, hasWild_append, hasWild_append, hasWild_text e h.1, hasWild_word h.2.2, wilds]
    show (false || wilds e || false || false || false) = _
    simp
  | .map b k v, h => by
    rw [Wf] at h
    rw [text, hasWild_append, hasWild_append, hasWild_append, hasWild_append, hasWild_text k h.2.1, hasWild_text v h.2.2, wilds]
    show (false || wilds k || false || wilds v || false) = _
    simp
  | .ptr t, h => by
    rw [Wf] at h
    rw [text, hasWild_append, hasWild_text t h, wilds]
    rfl
  | .func ps r, h => by
    rw [Wf] at h
    rw [text, hasWild_append, hasWild_append, hasWild_append, hasWild_textP ps h.1, hasWild_textR r h.2, wilds]
    show (false || wildsP ps || false || wildsR r) = _
    simp
theorem hasWild_textP : ∀ ts : Tys, WfP ts → hasWild (textP ts) = wildsP ts
  | .nil, _ => by rw [textP, wildsP]; rfl
  | .cons mu t ts, h => by
    rw [WfP] at h
    rw [textP, hasWild_append, hasWild_append, hasWild_text t h.1, hasWild_textQ ts h.2, wildsP]
    cases mu <;> rfl
theorem hasWild_textQ : ∀ ts : Tys, WfP ts → hasWild (textQ ts) = wildsP ts
  | .nil, _ => by rw [textQ, wildsP]; rfl
  | .cons mu t ts, h => by
    rw [WfP] at h
    rw [textQ, hasWild_append, hasWild_append, hasWild_append, hasWild_text t h.1, hasWild_textQ ts h.2, wildsP]
    cases mu <;> rfl
theorem hasWild_textN : ∀ ts : Tys, WfN ts → hasWild (textQ ts) = wildsP ts
  | .nil, _ => by rw [textQ, wildsP]; rfl
  | .cons mu t ts, h => by
    rw [WfN] at h
    rw [textQ, hasWild_append, hasWild_append, hasWild_append, hasWild_text t h.2.1, hasWild_textN ts h.2.2.2, wildsP]
    cases mu <;> rfl
theorem hasWild_textR : ∀ r : Ret, WfR r → hasWild (textR r) = wildsR r
  | .none, _ => by rw [textR, wildsR]; rfl
  | .one t, h => by
    rw [WfR] at h
    rw [textR, hasWild_append, hasWild_text t h.1, wildsR]
    rfl
  | .many t ts, h => by
    rw [WfR] at h
    rw [textR, hasWild_append, hasWild_append, hasWild_append, hasWild_append, hasWild_text t h.1, hasWild_textN ts h.2.2, wildsR]
    show (false || (false || wilds t || wildsP ts) || false) = _
    simp
end

mutual
theorem inst_none (v : Ty) : ∀ t : Ty, wilds t = false → inst v t = t
  | .wild, h => by rw [wilds] at h; cases h
  | .name s, _ => by rw [inst]
  | .qual m s, _ => by rw [inst]
  | .arr e, h => by rw [wilds] at h; rw [inst, inst_none v e h]
  | .fixed e n b, h => by rw [wilds] at h; rw [inst, inst_none v e h]
  | .map b k w, h => by
    rw [wilds, Bool.or_eq_false_iff] at h
    rw [inst, inst_none v k h.1, inst_none v w h.2]
  | .ptr t, h => by rw [wilds] at h; rw [inst, inst_none v t h]
  | .func ps r, h => by
    rw [wilds, Bool.or_eq_false_iff] at h
    rw [inst, inst_noneP v ps h.1, inst_noneR v r h.2]
theorem inst_noneP (v : Ty) : ∀ ts : Tys, wildsP ts = false → instP v ts = ts
  | .nil, _ => by rw [instP]
  | .cons mu t ts, h => by
    rw [wildsP, Bool.or_eq_false_iff] at h
    rw [instP, inst_none v t h.1, inst_noneP v ts h.2]
theorem inst_noneR (v : Ty) : ∀ r : Ret, wildsR r = false → instR v r = r
  | .none, _ => by rw [instR]
  | .one t, h => by rw [wildsR] at h; rw [instR, inst_none v t h]
  | .many t ts, h => by
    rw [wildsR, Bool.or_eq_false_iff] at h
    rw [instR, inst_none v t h.1, inst_noneP v ts h.2]
end

/-- Replacing `?` in a type replaces it in its text. -/
theorem subst_append (s t c : Str) : subst (s ++ t) c = subst s c ++ subst t c := List.flatMap_append

theorem subst_none (s c : Str) (h : hasWild s = false) : subst s c = s := by
  induction s with
  | nil => rfl
  | cons b s ih =>
    have h' : isWild b = false ∧ hasWild s = false := by
      rw [hasWild, List.any_cons, Bool.or_eq_false_iff] at h
      exact h
    show (if isWild b then c else [b]) ++ subst s c = b :: s
    rw [if_neg (by simp [h'.1]), ih h'.2]
    rfl

theorem subst_amp (mu : Bool) (c : Str) : subst (if mu then lit "&" else []) c = if mu then lit "&" else [] := by
  cases mu
  · rfl
  · exact subst_none _ _ (by decide)

mutual
theorem text_inst (v : Ty) : ∀ t : Ty, Wf t → text (inst v t) = subst (text t) (text v)
  | .wild, _ => by
    rw [inst, text]
    show text v = (if isWild (ch '?') then text v else _) ++ []
    rw [if_pos (by decide), List.append_nil]
  | .name s, h => by rw [Wf] at h; rw [inst, text, subst_none _ _ (hasWild_word h)]
  | .qual m s, h => by
    rw [inst, subst_none _ _ (by rw [hasWild_text _ h, wilds])]
  | .arr e, h => by
    rw [Wf] at h
    rw [inst, text, text, subst_append, subst_append, ← text_inst v e h.1, subst_none (lit "[") _ (by decide),
      subst_none (lit "]") _ (by decide)]
  | .fixed e n b, h => by
    rw [Wf] at h
    rw [inst, text, text, subst_append, subst_append, subst_append, subst_append, ← text_inst v e h.1, subst_none (lit "[") _ (by decide),
      subst_none (lit "]") _ (by decide), subst_none (lit ",") _ (by decide), subst_none n _ (hasWild_word h.2.2)]
  | .map b k w, h => by
    rw [Wf] at h
    rw [inst, text, text, subst_append, subst_append, subst_append, subst_append, ← text_inst v k h.2.1, ← text_inst v w h.2.2,
      subst_none (lit "map[") _ (by decide), subst_none (lit "]") _ (by decide), subst_none (lit ":") _ (by decide)]
  | .ptr t, h => by
    rw [Wf] at h
    rw [inst, text, text, subst_append, ← text_inst v t h, subst_none (lit "^") _ (by decide)]
  | .func ps r, h => by
    rw [Wf] at h
    rw [inst, text, text, subst_append, subst_append, subst_append, ← text_instP v ps h.1, ← text_instR v r h.2,
      subst_none (lit "func(") _ (by decide), subst_none (lit ")") _ (by decide)]
theorem text_instP (v : Ty) : ∀ ts : Tys, WfP ts → textP (instP v ts) = subst (textP ts) (text v)
  | .nil, _ => by rw [instP, textP]; rfl
  | .cons mu t ts, h => by
    rw [WfP] at h
    rw [instP, textP, textP, subst_append, subst_append, ← text_inst v t h.1, ← text_instQ v ts h.2, subst_amp]
theorem text_instQ (v : Ty) : ∀ ts : Tys, WfP ts → textQ (instP v ts) = subst (textQ ts) (text v)
  | .nil, _ => by rw [instP, textQ]; rfl
  | .cons mu t ts, h => by
    rw [WfP] at h
    rw [instP, textQ, textQ, subst_append, subst_append, subst_append, ← text_inst v t h.1, ← text_instQ v ts h.2, subst_amp,
      subst_none (lit ",") _ (by decide)]
theorem text_instN (v : Ty) : ∀ ts : Tys, WfN ts → textQ (instP v ts) = subst (textQ ts) (text v)
  | .nil, _ => by rw [instP, textQ]; rfl
  | .cons mu t ts, h => by
    rw [WfN] at h
    rw [instP, textQ, textQ, subst_append, subst_append, subst_append, ← text_inst v t h.2.1, ← text_instN v ts h.2.2.2, subst_amp,
      subst_none (lit ",") _ (by decide)]
theorem text_instR (v : Ty) : ∀ r : Ret, WfR r → textR (instR v r) = subst (textR r) (text v)
  | .none, _ => by rw [instR, textR]; rfl
  | .one t, h => by
    rw [WfR] at h
    rw [instR, textR, textR, subst_append, ← text_inst v t h.1, subst_none (lit "->") _ (by decide)]
  | .many t ts, h => by
    rw [WfR] at h
    rw [instR, textR, textR, subst_append, subst_append, subst_append, subst_append, ← text_inst v t h.1, ← text_instN v ts h.2.2,
      subst_none (lit "->") _ (by decide), subst_none (lit "(") _ (by decide), subst_none (lit ")") _ (by decide)]
end

theorem wild_key {k : Ty} (h : Flat k) (hw : wilds k = true) : k = .wild := by
  match k, h, hw with
  | .wild, _, _ => rfl
  | .name _, _, hw => rw [wilds] at hw; cases hw
  | .qual _ _, _, hw => rw [wilds] at hw; cases hw

/-- Nothing is bound in other types. -/
theorem bind_dead (t : Ty) (h : Wf t) (hd : ∀ e n b k v, t ≠ .wild ∧ t ≠ .arr e ∧ t ≠ .fixed e n b ∧ t ≠ .map b k v) (n : Nat) (a : Str) :
    TypeName.bind n (text t) a = none := by
  cases n with
  | zero => rfl
  | succ n =>
    have h1 : text t ≠ lit "?" := fun e => (hd .wild [] true .wild .wild).1 ((wild_iff t h).1 e)
    have h2 : bracketed (text t) = false := by
      refine Bool.eq_false_iff.2 fun e => ?_
      rcases bracketed_text t h e with ⟨f, rfl⟩ | ⟨f, n, b, rfl⟩
      · exact (hd f [] true .wild .wild).2.1 rfl
      · exact (hd f n b .wild .wild).2.2.1 rfl
    have h3 : ¬ ((text t).take 4 = lit "map[" ∧ a.take 4 = lit "map[") := by
      rintro ⟨e, -⟩
      obtain ⟨b, k, v, rfl⟩ := map_of_text t h e
      exact (hd .wild [] b k v).2.2.2 rfl
    rw [TypeName.bind, if_neg h1, h2, Bool.false_and, if_neg (by simp), if_neg h3]

theorem bind_fixed (e : Ty) (s : Str) (b : Bool) (h : Wf (.fixed e s b)) (n : Nat) (a : Str) :
    TypeName.bind n (text (.fixed e s b)) a = none := by
  cases n with
  | zero => rfl
  | succ n =>
    have hw := h
    rw [Wf] at hw
    have h1 : text (.fixed e s b) ≠ lit "?" := fun e => by cases (wild_iff _ h).1 e
    have h3 : ¬ ((text (.fixed e s b)).take 4 = lit "map[" ∧ a.take 4 = lit "map[") := by
      rintro ⟨e, -⟩
      obtain ⟨b, k, v, e⟩ := map_of_text _ h e
      cases e
    have hin : ((text (.fixed e s b)).drop 1).dropLast = text e ++ lit "," ++ s := by
      rw [text]
      show (text e ++ lit "," ++ s ++ [ch ']']).dropLast = _
      rw [List.dropLast_concat]
    have hlast : (text e ++ lit "," ++ s).getLast? ≠ some (ch ']') := by
      intro hl
      obtain ⟨x, hx⟩ : ∃ x, s.getLast? = some x := ⟨s.getLast hw.2.2.1, List.getLast?_eq_some_getLast hw.2.2.1⟩
      rw [List.getLast?_append, hx] at hl
      have : x = ch ']' := by simpa using hl
      subst this
      exact (not_special (word_special (ch ']').toFin (hw.2.2.2 _ (List.mem_of_getLast? hx)))).2.2.2.1 rfl
    have hne : text e ++ lit "," ++ s ≠ lit "?" := by
      intro hl
      have h1 := congrArg List.length hl
      have h2 := List.length_pos_iff.2 hw.2.2.1
      simp [lit] at h1
      omega
    rw [TypeName.bind, if_neg h1, hin, bind_last _ _ _ hne hlast]
    repeat' split
    all_goals first | rfl | skip
    all_goals (exfalso; rename_i hh _ _ _ _ _ _; exact h3 hh)

theorem text_ne_nil {t : Ty} (h : Wf t) : text t ≠ [] := text_ne t h

theorem bind_sound : ∀ (t u : Ty) (n : Nat) (c : Str), Wf t → Wf u → Sound t → Fits t u →
    TypeName.bind n (text t) (text u) = some c → ∃ v, Wf v ∧ text v = c ∧ text (inst v t) = text u
  | t, u, 0, c, _, _, _, _, h => by cases h
  | .wild, u, n + 1, c, _, hu, _, _, h => by
    rw [text, TypeName.bind, if_pos rfl] at h
    by_cases e : text u = lit "unknown"
    · rw [if_pos e] at h; cases h
    · rw [if_neg e] at h
      exact ⟨u, hu, by simpa using h, rfl⟩
  | .name s, u, n + 1, c, ht, _, _, _, h => by rw [bind_dead _ ht (by simp)] at h; cases h
  | .qual m s, u, n + 1, c, ht, _, _, _, h => by rw [bind_dead _ ht (by simp)] at h; cases h
  | .fixed e s b, u, n + 1, c, ht, hu, _, _, h => by rw [bind_fixed e s b ht] at h; cases h
  | .ptr t, u, n + 1, c, ht, _, _, _, h => by rw [bind_dead _ ht (by simp)] at h; cases h
  | .func ps r, u, n + 1, c, ht, _, _, _, h => by rw [bind_dead _ ht (by simp)] at h; cases h
  | .arr e, u, n + 1, c, ht, hu, hs, hf, h => by
    have hw : text (.arr e) ≠ lit "?" := fun x => by cases (wild_iff _ ht).1 x
    have hm : ¬ ((text (.arr e)).take 4 = lit "map[" ∧ (text u).take 4 = lit "map[") := by
      rintro ⟨x, -⟩
      obtain ⟨b, k, v, x⟩ := map_of_text _ ht x
      cases x
    by_cases hb : bracketed (text u) = true
    · rcases bracketed_text u hu hb with ⟨f, rfl⟩ | ⟨f, s, b, rfl⟩
      · rw [Wf] at ht hu
        rw [text, text, bind_arr _ _ _ (text_ne e ht.1) (text_ne f hu.1)] at h
        obtain ⟨v, h1, h2, h3⟩ := bind_sound e f n c ht.1 hu.1 hs hf h
        exact ⟨v, h1, h2, by rw [inst, text, text, h3]⟩
      · exact absurd hf (by simp [Fits])
    · rw [TypeName.bind, if_neg hw, if_neg (by simp [hb]), if_neg hm] at h
      cases h
  | .map b k w, u, n + 1, c, ht, hu, hs, hf, h => by
    have hw : text (.map b k w) ≠ lit "?" := fun x => by cases (wild_iff _ ht).1 x
    have hb : bracketed (text (.map b k w)) = false := by
      refine Bool.eq_false_iff.2 fun x => ?_
      rcases bracketed_text _ ht x with ⟨e, x⟩ | ⟨e, n, b, x⟩ <;> cases x
    have h4 : ∀ b k w, (text (.map b k w)).take 4 = lit "map[" := fun b k w => by rw [map_text]; rfl
    by_cases hm : (text u).take 4 = lit "map["
    · obtain ⟨b', k', w', rfl⟩ := map_of_text u hu hm
      have ht' := ht
      have hu' := hu
      rw [Wf] at ht' hu'
      rw [bind_map n _ _ _ _ _ _ hw hb (h4 b k w) hm (keyValue_text b k w ht'.2.1) (keyValue_text b' k' w' hu'.2.1),
        hasWild_text k ht'.2.1, hasWild_text w ht'.2.2] at h
      have hi : ∀ v, inst v (.map b k w) = .map b (inst v k) (inst v w) := fun v => by rw [inst]
      cases ek : wilds k with
      | true =>
        have := wild_key ht'.1 ek
        subst this
        cases ew : wilds w with
        | true =>
          have := hs.2 rfl ew
          subst this
          rw [ek] at h
          simp only [Bool.not_true, Bool.false_and, Bool.true_and, Bool.false_eq_true, if_false, if_true] at h
          by_cases e : text k' = text w'
          · rw [if_neg (by simp [e])] at h
            obtain ⟨v, h1, h2, h3⟩ := bind_sound .wild k' n c ht'.2.1 hu'.2.1 trivial hf.1 h
            refine ⟨v, h1, h2, ?_⟩
            have h3 : text v = text k' := h3
            rw [hi, map_text, map_text, inst, h3, ← e]
          · rw [if_pos (by simp [e])] at h
            cases h
        | false =>
          rw [ek, ew] at h
          simp only [Bool.not_true, Bool.not_false, Bool.false_and, Bool.and_false, Bool.true_and, Bool.false_eq_true, if_false, if_true] at h
          by_cases e : text w' = text w
          · rw [if_neg (by simp [e])] at h
            obtain ⟨v, h1, h2, h3⟩ := bind_sound .wild k' n c ht'.2.1 hu'.2.1 trivial hf.1 h
            refine ⟨v, h1, h2, ?_⟩
            have h3 : text v = text k' := h3
            rw [hi, map_text, map_text, inst_none v w ew, inst, h3, e]
          · rw [if_pos (by simp [e])] at h
            cases h
      | false =>
        cases ew : wilds w with
        | true =>
          rw [ek, ew] at h
          simp only [Bool.not_true, Bool.not_false, Bool.false_and, Bool.and_false, Bool.true_and, Bool.false_eq_true, if_false, if_true] at h
          by_cases e : text k' = text k
          · rw [if_neg (by simp [e])] at h
            obtain ⟨v, h1, h2, h3⟩ := bind_sound w w' n c ht'.2.2 hu'.2.2 hs.1 hf.2 h
            refine ⟨v, h1, h2, ?_⟩
            rw [hi, map_text, map_text, inst_none v k ek, h3, e]
          · rw [if_pos (by simp [e])] at h
            cases h
        | false =>
          rw [ek, ew] at h
          simp at h
    · rw [TypeName.bind, if_neg hw, hb, Bool.false_and, if_neg (by simp), if_neg (fun x => hm x.2)] at h
      cases h

/-! ## Completeness -/

/-- The types in which the wildcard is looked for. -/
def Bindable : Ty → Prop
  | .wild => True
  | .arr e => Bindable e
  | .map _ k v => (wilds k = true ∧ (v = .wild ∨ wilds v = false)) ∨ (wilds k = false ∧ Bindable v)
  | _ => False

theorem bindable_wilds : ∀ t : Ty, Bindable t → wilds t = true
  | .wild, _ => rfl
  | .arr e, h => bindable_wilds e h
  | .map _ k v, h => by
    rw [wilds]
    rcases h with h | h
    · rw [h.1]; rfl
    · rw [bindable_wilds v h.2, Bool.or_true]

theorem wf_inst_flat {k v : Ty} (hk : Flat k) (hw : Wf k) (hv : Wf v) : Wf (inst v k) := by
  match k, hk, hw with
  | .wild, _, _ => exact hv
  | .name _, _, hw => exact hw
  | .qual _ _, _, hw => exact hw

theorem inst_ne (v : Ty) (hv : Wf v) : ∀ t : Ty, Wf t → text (inst v t) ≠ []
  | .wild, _ => text_ne v hv
  | .name s, h => text_ne _ h
  | .qual m s, h => text_ne _ h
  | .arr e, _ => by rw [inst, text]; simp [lit]
  | .fixed e n b, _ => by rw [inst, text]; simp [lit]
  | .map b k w, _ => by rw [inst, text]; simp [lit]
  | .ptr t, _ => by rw [inst, text]; simp [lit]
  | .func ps r, _ => by rw [inst, text]; simp [lit]

theorem bind_complete (v : Ty) (hv : Wf v) (hu : text v ≠ lit "unknown") : ∀ (t : Ty) (n : Nat), Wf t → Bindable t →
    (text t).length < n → TypeName.bind n (text t) (text (inst v t)) = some (text v)
  | t, 0, _, _, h => by omega
  | .wild, n + 1, _, _, _ => by rw [text, TypeName.bind, if_pos rfl, inst, if_neg hu]
  | .arr e, n + 1, ht, hb, hl => by
    rw [Wf] at ht
    rw [inst, text, text, bind_arr _ _ _ (text_ne e ht.1) (inst_ne v hv e ht.1)]
    exact bind_complete v hv hu e n ht.1 hb (by rw [text] at hl; simp [lit] at hl; omega)
  | .map b k w, n + 1, ht, hb, hl => by
    have hw : text (.map b k w) ≠ lit "?" := fun x => by cases (wild_iff _ ht).1 x
    have hbr : bracketed (text (.map b k w)) = false := by
      refine Bool.eq_false_iff.2 fun x => ?_
      rcases bracketed_text _ ht x with ⟨e, x⟩ | ⟨e, n, b, x⟩ <;> cases x
    have h4 : ∀ b k w, (text (.map b k w)).take 4 = lit "map[" := fun b k w => by rw [map_text]; rfl
    rw [Wf] at ht
    have hlk : (text k).length < n ∧ (text w).length < n := by
      rw [map_text] at hl
      simp [lit] at hl
      omega
    rw [inst, bind_map n _ _ _ _ _ _ hw hbr (h4 b k w) (h4 _ _ _) (keyValue_text b k w ht.2.1)
      (keyValue_text b _ _ (wf_inst_flat ht.1 ht.2.1 hv)), hasWild_text k ht.2.1, hasWild_text w ht.2.2]
    rcases hb with ⟨ek, hb⟩ | ⟨ek, hb⟩
    · have := wild_key ht.1 ek
      subst this
      rcases hb with rfl | hb
      · have e : wilds .wild = true := rfl
        rw [e]
        simp only [Bool.not_true, Bool.false_and, Bool.true_and, Bool.false_eq_true, if_false, if_true, inst, bne_self_eq_false]
        exact bind_complete v hv hu .wild n ht.2.1 trivial hlk.1
      · rw [ek, hb, inst_none v w hb]
        simp only [Bool.not_true, Bool.not_false, Bool.false_and, Bool.and_false, Bool.true_and, Bool.false_eq_true, if_false, if_true,
          bne_self_eq_false]
        exact bind_complete v hv hu .wild n ht.2.1 trivial hlk.1
    · rw [ek, bindable_wilds w hb, inst_none v k ek]
      simp only [Bool.not_true, Bool.not_false, Bool.false_and, Bool.and_false, Bool.true_and, Bool.false_eq_true, if_false, if_true,
          bne_self_eq_false]
      exact bind_complete v hv hu w n ht.2.2 hb hlk.2

/-- A text with a comma outside of brackets is no type's. -/
theorem no_type {s : Str} (h : split 0 [] s ≠ [s]) (v : Ty) (hv : Wf v) : text v ≠ s := by
  rintro rfl
  have := split_bal (bal_text v hv) 0 [] [] (by omega) (by simp)
  rw [List.append_nil, List.nil_append] at this
  exact h (by rw [this]; rfl)

/-- `map[string:[?]]` -/
def mapWildArr : Ty := .map false (nm "string") (.arr .wild)
/-- `map[string:[int,3]]` -/
def mapSized : Ty := .map false (nm "string") (.fixed (nm "int") (lit "3") false)
/-- `map[?:[?]]` -/
def mapKeyArr : Ty := .map false .wild (.arr .wild)
/-- `map[int:int]` -/
def mapInts : Ty := .map false (nm "int") (nm "int")

theorem words : Word (lit "string") ∧ Word (lit "int") ∧ Word (lit "3") ∧ Word (lit "Point") ∧ Word (lit "first") ∧
    Word (lit "first__int") := by
  unfold Word
  decide

end Wc

/-- Parameters in which a map with key `?` has no further `?` but for the value `?`; arguments without an array with a size where the
parameter has one without. Missing: the other maps, arrays with sizes. -/
theorem C146_partial {t u : Ty} (ht : Wf t) (hu : Wf u) (hs : Sound t) (hf : Fits t u) {c : Str}
    (h : bindWildcard (text t) (text u) = some c) : ∃ v, Wf v ∧ text v = c ∧ text (inst v t) = text u :=
  bind_sound t u _ c ht hu hs hf h

/-- `map[string:[?]]` with a `map[string:[int,3]]` binds the wildcard to `int,3`; `map[?:[?]]` takes a `map[int:int]`. -/
theorem C146_witness :
    (Wf mapWildArr ∧ Wf mapSized ∧ bindWildcard (text mapWildArr) (text mapSized) = some (lit "int,3") ∧
      ∀ v, Wf v → text v ≠ lit "int,3") ∧
    (Wf mapKeyArr ∧ Wf mapInts ∧ bindWildcard (text mapKeyArr) (text mapInts) = some (lit "int") ∧
      ∀ v, text v = lit "int" → text (inst v mapKeyArr) = lit "map[int:[int]]" ∧ text mapInts = lit "map[int:int]") := by
  obtain ⟨w1, w2, w3, -⟩ := words
  refine ⟨⟨by simp [mapWildArr, Wf, nm, Flat, isFunc, w1], by simp [mapSized, Wf, nm, Flat, isFunc, w1, w2, w3], by decide,
    no_type (by decide)⟩, by simp [mapKeyArr, Wf, Flat, isFunc], by simp [mapInts, Wf, nm, Flat, w2], by decide, fun v hv => ⟨?_, by decide⟩⟩
  rw [text_inst v mapKeyArr (by simp [mapKeyArr, Wf, Flat, isFunc]), hv]
  decide

theorem C146_fails : ¬ C146_statement := by
  intro h
  obtain ⟨h1, h2, h3, h4⟩ := C146_witness.1
  obtain ⟨v, hv, e, -⟩ := h _ _ h1 h2 _ h3
  exact h4 v hv e

/-- Parameters `?`, arrays and maps of such, with the wildcard as key or as value or both. Missing: pointers, arrays with sizes, functions
and maps with a wildcard key and a wildcard inside the value. -/
theorem C147_partial {t v : Ty} (ht : Wf t) (hv : Wf v) (hb : Bindable t) (hu : text v ≠ lit "unknown") :
    bindWildcard (text t) (text (inst v t)) = some (text v) :=
  bind_complete v hv hu t _ ht hb (by omega)

/-- `^?` does not take a `^int`, `[?,3]` no `[int,3]`, `func(?)` no `func(int)`. -/
theorem C147_witness :
    bindWildcard (text (.ptr .wild)) (text (inst (nm "int") (.ptr .wild))) = none ∧
    bindWildcard (text (.fixed .wild (lit "3") false)) (text (inst (nm "int") (.fixed .wild (lit "3") false))) = none ∧
    bindWildcard (text (.func (.cons false .wild .nil) .none)) (text (inst (nm "int") (.func (.cons false .wild .nil) .none))) = none ∧
    bindWildcard (text mapKeyArr) (text (inst (nm "int") mapKeyArr)) = none := by
  decide

theorem C147_fails : ¬ C147_statement := by
  intro h
  have := h (.ptr .wild) (nm "int") (by rw [Wf, Wf]; trivial) (wf_nm _ words.2.1) (by decide) (by decide)
  rw [C147_witness.1] at this
  cases this

/-- `map[string:[?]]` takes a `map[string:[^Point]]` with `^Point`. -/
example : bindWildcard (text mapWildArr) (lit "map[string:[^Point]]") = some (lit "^Point") := by decide

/-! ## The emitter -/

namespace Wc

theorem colonAt_keyLen : ∀ (s : Str) (d : Int) (n : Nat), keyLen d (s ++ [ch ']']) = some n → colonAt d s = some n ∧ n < s.length
  | [], d, n, h => by
    rw [List.nil_append, keyLen] at h
    by_cases e : d = 0
    · rw [if_pos ⟨e, rfl⟩] at h; cases h
    · rw [if_neg (fun x => e x.1), if_neg (by decide), if_pos rfl] at h
      cases h
  | c :: s, d, n, h => by
    rw [List.cons_append, keyLen] at h
    rw [colonAt]
    by_cases e1 : d = 0 ∧ c = ch ']'
    · rw [if_pos e1] at h; cases h
    · rw [if_neg e1] at h
      have step : ∀ d', (keyLen d' (s ++ [ch ']'])).map (· + 1) = some n → (colonAt d' s).map (· + 1) = some n ∧ n < (c :: s).length := by
        intro d' h
        rw [Option.map_eq_some_iff] at h
        obtain ⟨m, hm, rfl⟩ := h
        obtain ⟨h1, h2⟩ := colonAt_keyLen s d' m hm
        exact ⟨by rw [h1]; rfl, by simp; omega⟩
      by_cases e2 : c = ch '['
      · rw [if_pos e2] at h ⊢; exact step _ h
      · rw [if_neg e2] at h ⊢
        by_cases e3 : c = ch ']'
        · rw [if_pos e3] at h ⊢; exact step _ h
        · rw [if_neg e3] at h ⊢
          by_cases e4 : c = ch ':' ∧ d = 0
          · rw [if_pos e4] at h ⊢; exact ⟨h, by cases h; simp⟩
          · rw [if_neg e4] at h ⊢; exact step _ h

/-- What `parse_map_key_value` finds, the emitter finds. -/
theorem colon_of {tn k v : Str} (h : keyValue tn = some (k, v)) :
    tn.take 4 = lit "map[" ∧ tn.getLast? = some (ch ']') ∧ 4 < tn.length ∧
    ∃ n, colonAt 0 (tn.drop 4).dropLast = some n ∧ (tn.drop 4).dropLast.take n = k ∧ (tn.drop 4).dropLast.drop (n + 1) = v := by
  rw [keyValue] at h
  by_cases h4 : tn.take 4 = lit "map["
  · rw [if_pos h4] at h
    match hk : keyLen 0 (tn.drop 4) with
    | none => rw [hk] at h; cases h
    | some n =>
      rw [hk] at h
      by_cases hl : tn.getLast? = some (ch ']')
      · have h : (if tn.getLast? = some (ch ']') then some ((tn.drop 4).take n, ((tn.drop 4).drop (n + 1)).dropLast) else none) =
          some (k, v) := h
        rw [if_pos hl] at h
        obtain ⟨rfl, rfl⟩ := by simpa using h
        have hne : tn.drop 4 ≠ [] := by
          intro e
          rw [e] at hk
          cases hk
        have hlen : 4 < tn.length := by
          have := List.length_pos_iff.2 hne
          rw [List.length_drop] at this
          omega
        have hlast : (tn.drop 4).getLast hne = ch ']' := by
          rw [List.getLast_drop]
          rw [List.getLast?_eq_some_getLast (by rintro rfl; simp at hlen)] at hl
          simpa using hl
        obtain ⟨s, hs⟩ : ∃ s, tn.drop 4 = s ++ [ch ']'] :=
          ⟨(tn.drop 4).dropLast, by rw [← hlast]; exact (List.dropLast_concat_getLast hne).symm⟩
        rw [hs] at hk ⊢
        obtain ⟨h1, h2⟩ := colonAt_keyLen _ _ _ hk
        refine ⟨h4, hl, hlen, n, ?_, ?_, ?_⟩
        · rw [List.dropLast_concat, h1]
        · rw [List.dropLast_concat, List.take_append_of_le_length (by omega)]
        · have e : tn.drop (4 + (n + 1)) = (s ++ [ch ']']).drop (n + 1) := by rw [← hs, List.drop_drop]
          rw [List.dropLast_concat, e, List.drop_append_of_le_length (by omega), List.dropLast_concat]
      · have h : (if tn.getLast? = some (ch ']') then some ((tn.drop 4).take n, ((tn.drop 4).drop (n + 1)).dropLast) else none) =
          some (k, v) := h
        rw [if_neg hl] at h
        cases h
  · rw [if_neg h4] at h
    cases h

theorem hasWild_mid {p : Str} (h : hasWild (p.drop 1).dropLast = true) : hasWild p = true := by
  rw [hasWild, List.any_eq_true] at h ⊢
  obtain ⟨x, hx, hw⟩ := h
  exact ⟨x, List.mem_of_mem_drop (List.dropLast_subset _ hx), hw⟩

theorem bind_genBind : ∀ (n : Nat) (p a c : Str), TypeName.bind n p a = some c → hasWild p = true ∧ genBind n p a = some c
  | 0, _, _, _, h => by cases h
  | n + 1, p, a, c, h => by
    rw [TypeName.bind] at h
    by_cases h1 : p = lit "?"
    · subst h1
      rw [if_pos rfl] at h
      by_cases h2 : a = lit "unknown"
      · rw [if_pos h2] at h; cases h
      · rw [if_neg h2] at h
        exact ⟨by decide, by rw [genBind, if_neg (by decide), if_pos rfl, ← h]⟩
    · rw [if_neg h1] at h
      by_cases h2 : (bracketed p && bracketed a) = true
      · rw [if_pos h2] at h
        rw [Bool.and_eq_true] at h2
        by_cases h3 : p.length < 3 ∨ a.length < 3
        · rw [if_pos h3] at h; cases h
        · rw [if_neg h3] at h
          by_cases h4 : p.getLast? ≠ some (ch ']') ∨ a.getLast? ≠ some (ch ']')
          · rw [if_pos h4] at h; cases h
          · rw [if_neg h4] at h
            obtain ⟨hw, hg⟩ := bind_genBind n _ _ c h
            have hw := hasWild_mid hw
            have hp : p.getLast? = some (ch ']') := Classical.byContradiction fun x => h4 (.inl x)
            have ha : a.getLast? = some (ch ']') := Classical.byContradiction fun x => h4 (.inr x)
            refine ⟨hw, ?_⟩
            rw [genBind, hw, if_neg (by decide), if_neg h1, if_pos ⟨by omega, h2.1, hp⟩,
              if_neg (by rintro (x | x | x); · omega
                         · simp [h2.2] at x
                         · exact x ha), hg]
      · rw [if_neg h2] at h
        by_cases h3 : p.take 4 = lit "map[" ∧ a.take 4 = lit "map["
        · rw [if_pos h3] at h
          match hp : keyValue p, ha : keyValue a with
          | none, _ => rw [hp] at h; cases h
          | some (pk, pv), none => rw [hp, ha] at h; cases h
          | some (pk, pv), some (ak, av) =>
            rw [hp, ha] at h
            obtain ⟨-, pl, plen, m, pc, pt, pd⟩ := colon_of hp
            obtain ⟨-, al, alen, m', ac, at', ad⟩ := colon_of ha
            have hb : ¬ (3 ≤ p.length ∧ bracketed p = true ∧ p.getLast? = some (ch ']')) := by
              rintro ⟨-, hb, -⟩
              have : p.take 1 = lit "[" := by simpa [bracketed] using hb
              have h5 := congrArg (·.take 1) h3.1
              simp only [List.take_take] at h5
              rw [show min 1 4 = 1 from rfl, this] at h5
              exact absurd h5 (by decide)
            have hsub : ∀ x, (x ∈ pk ∨ x ∈ pv) → x ∈ p := by
              intro x hx
              have : x ∈ (p.drop 4).dropLast := by
                rcases hx with hx | hx
                · rw [← pt] at hx; exact List.mem_of_mem_take hx
                · rw [← pd] at hx; exact List.mem_of_mem_drop hx
              exact List.mem_of_mem_drop (List.dropLast_subset _ this)
            have hwild : ∀ s, (s = pk ∨ s = pv) → hasWild s = true → hasWild p = true := by
              intro s hs h
              rw [hasWild, List.any_eq_true] at h ⊢
              obtain ⟨x, hx, hw⟩ := h
              exact ⟨x, hsub x (hs.elim (fun e => .inl (e ▸ hx)) (fun e => .inr (e ▸ hx))), hw⟩
            have key : hasWild p = true → genBind (n + 1) p a =
                match (if hasWild pk then genBind n pk ak else none) with
                | some r => some r
                | none => if hasWild pv then genBind n pv av else none := by
              intro hw
              rw [genBind, hw, if_neg (by decide), if_neg h1, if_neg hb, if_pos ⟨plen, h3.1, pl⟩,
                if_neg (by rintro (x | x | x); · omega
                           · exact x h3.2
                           · exact x al)]
              simp only [pc, ac, pt, pd, at', ad]
              rfl
            have h : (if !hasWild pk && !hasWild pv then none
              else if !hasWild pk && ak != pk then none
              else if !hasWild pv && av != pv then none
              else if hasWild pk && hasWild pv && ak != av then none
              else if hasWild pk then TypeName.bind n pk ak
              else TypeName.bind n pv av) = some c := h
            cases ek : hasWild pk with
            | true =>
              have : TypeName.bind n pk ak = some c := by
                rw [ek] at h
                simp only [Bool.not_true, Bool.false_and, Bool.true_and, if_true] at h
                repeat' split at h
                all_goals first | exact h | cases h
              obtain ⟨hw, hg⟩ := bind_genBind n _ _ c this
              refine ⟨hwild pk (.inl rfl) ek, ?_⟩
              rw [key (hwild pk (.inl rfl) ek), ek, if_pos rfl, hg]
            | false =>
              cases ew : hasWild pv with
              | false => rw [ek, ew] at h; simp at h
              | true =>
                have : TypeName.bind n pv av = some c := by
                  rw [ek, ew] at h
                  simp only [Bool.not_true, Bool.not_false, Bool.false_and, Bool.true_and, Bool.and_false] at h
                  repeat' split at h
                  all_goals first | exact h | cases h | skip
                  all_goals simp_all
                obtain ⟨hw, hg⟩ := bind_genBind n _ _ c this
                refine ⟨hwild pv (.inr rfl) ew, ?_⟩
                rw [key (hwild pv (.inr rfl) ew), ek, ew]
                exact hg
        · rw [if_neg h3] at h
          cases h

end Wc

/-- What the checker binds, the emitter binds: for all texts. -/
theorem C148_same (p a c : Str) (h : bindWildcard p a = some c) : genBind (p.length + 1) p a = some c :=
  (bind_genBind _ p a c h).2

/-- The emitter also binds in a few texts that the checker refuses. -/
example : bindWildcard (lit "map[?:[?]]") (lit "map[int:[int]]") = none ∧
    genBind 11 (lit "map[?:[?]]") (lit "map[int:[int]]") = some (lit "int") := by decide

example : bindWildcard (lit "map[string:[?]]") (lit "map[string:[[int]]]") = some (lit "[int]") ∧
    genBind 16 (lit "map[string:[?]]") (lit "map[string:[[int]]]") = some (lit "[int]") := by decide

/-! ## Names of instances -/

/-- The instances of generic functions have their own names, the same at the definition and at the calls, and none has the name of
another function. -/
def C149_statement : Prop :=
  ∀ f g, Word f → Word g → ∀ b c, Wf b → Wf c →
    defName f (text b) = .ok (callName f (text b)) ∧
    (callName f (text b) = callName g (text c) → f = g ∧ text b = text c) ∧
    callName f (text b) ≠ plainName g

namespace Wc

/-- No two underscores together, none at the end. -/
def Single : Str → Prop
  | [] => True
  | [c] => c ≠ ch '_'
  | c :: d :: r => ¬ (c = ch '_' ∧ d = ch '_') ∧ Single (d :: r)

/-- Names of letters and digits, arrays and maps of them. -/
def Simple : Ty → Prop
  | .name s => (∀ c ∈ s, isAlnum c = true) ∧ s ≠ [] ∧ s ≠ lit "map"
  | .arr e => Simple e
  | .map _ k v => (∃ s, k = .name s) ∧ Simple k ∧ Simple v
  | _ => False

theorem single_tail {c : Byte} {s : Str} (h : Single (c :: s)) : Single s := by
  cases s with
  | nil => trivial
  | cons d s => exact h.2

theorem single_split : ∀ (f g x y : Str), Single f → Single g →
    f ++ ch '_' :: ch '_' :: x = g ++ ch '_' :: ch '_' :: y → f = g ∧ x = y
  | [], [], x, y, _, _, h => by simpa using h
  | [], [d], x, y, _, hg, h => by
    simp only [List.nil_append, List.cons_append, List.cons.injEq] at h
    exact absurd h.1.symm hg
  | [], d :: e :: g, x, y, _, hg, h => by
    simp only [List.nil_append, List.cons_append, List.cons.injEq] at h
    exact absurd ⟨h.1.symm, h.2.1.symm⟩ hg.1
  | [d], [], x, y, hf, _, h => by
    simp only [List.nil_append, List.cons_append, List.cons.injEq] at h
    exact absurd h.1 hf
  | d :: e :: f, [], x, y, hf, _, h => by
    simp only [List.nil_append, List.cons_append, List.cons.injEq] at h
    exact absurd ⟨h.1, h.2.1⟩ hf.1
  | c :: f, d :: g, x, y, hf, hg, h => by
    simp only [List.cons_append, List.cons.injEq] at h
    obtain ⟨h1, h2⟩ := single_split f g x y (single_tail hf) (single_tail hg) h.2
    exact ⟨by rw [h.1, h1], h2⟩

theorem single_not : ∀ (f x : Str), ¬ Single (f ++ ch '_' :: ch '_' :: x)
  | [], x, h => h.1 ⟨rfl, rfl⟩
  | c :: f, x, h => single_not f x (single_tail h)

/-- The C name of a type. -/
def mangle (t : Ty) : Str := (text t).map wordByte

theorem mangle_alnum {s : Str} (h : ∀ c ∈ s, isAlnum c = true) : s.map wordByte = s := by
  induction s with
  | nil => rfl
  | cons c s ih =>
    rw [List.map_cons, ih fun x hx => h x (by simp [hx])]
    have : wordByte c = c := by
      rw [wordByte, if_pos (by rw [h c (by simp)]; rfl)]
    rw [this]

theorem mangle_name {s : Str} (h : Simple (.name s)) : mangle (.name s) = s := by rw [mangle, text, mangle_alnum h.1]

theorem mangle_arr (e : Ty) : mangle (.arr e) = ch '_' :: (mangle e ++ [ch '_']) := by
  rw [mangle, text, List.map_append, List.map_append]
  rfl

theorem mangle_map (b : Bool) (k v : Ty) : mangle (.map b k v) = lit "map" ++ ch '_' :: (mangle k ++ ch '_' :: (mangle v ++ [ch '_'])) := by
  rw [mangle, map_text, List.map_append, List.map_append, List.map_cons, List.map_append]
  rfl

/-- Nothing or an underscore. -/
def Stop (r : Str) : Prop := ∀ c, r.head? = some c → c = ch '_'

theorem alnum_under {c : Byte} (h : isAlnum c = true) : c ≠ ch '_' := by
  rintro rfl
  exact absurd h (by decide)

theorem run_unique : ∀ (s t r q : Str), (∀ c ∈ s, isAlnum c = true) → (∀ c ∈ t, isAlnum c = true) → Stop r → Stop q →
    s ++ r = t ++ q → s = t ∧ r = q
  | [], [], r, q, _, _, _, _, h => ⟨rfl, h⟩
  | [], d :: t, r, q, _, ht, hr, _, h => by
    rw [List.nil_append, List.cons_append] at h
    exact absurd (hr d (by rw [h]; rfl)) (alnum_under (ht d (by simp)))
  | c :: s, [], r, q, hs, _, _, hq, h => by
    rw [List.nil_append, List.cons_append] at h
    exact absurd (hq c (by rw [← h]; rfl)) (alnum_under (hs c (by simp)))
  | c :: s, d :: t, r, q, hs, ht, hr, hq, h => by
    simp only [List.cons_append, List.cons.injEq] at h
    obtain ⟨h1, h2⟩ := run_unique s t r q (fun c hc => hs c (by simp [hc])) (fun c hc => ht c (by simp [hc])) hr hq h.2
    exact ⟨by rw [h.1, h1], h2⟩

theorem stop_under (r : Str) : Stop (ch '_' :: r) := by
  intro c h
  simpa using h.symm

theorem mangle_unique : ∀ (t u : Ty) (r q : Str), Simple t → Simple u → Stop r → Stop q → mangle t ++ r = mangle u ++ q →
    text t = text u ∧ r = q
  | .name s, .name s', r, q, ht, hu, hr, hq, h => by
    rw [mangle_name ht, mangle_name hu] at h
    rw [text, text]
    exact run_unique s s' r q ht.1 hu.1 hr hq h
  | .name s, .arr e, r, q, ht, _, _, _, h => by
    rw [mangle_name ht, mangle_arr] at h
    obtain ⟨c, s, rfl⟩ := List.exists_cons_of_ne_nil ht.2.1
    exact absurd (List.cons.inj h).1 (alnum_under (ht.1 c (by simp)))
  | .name s, .map b k v, r, q, ht, _, hr, _, h => by
    rw [mangle_name ht, mangle_map, List.append_assoc] at h
    exact absurd (run_unique s (lit "map") _ _ ht.1 (by decide) hr (stop_under _) h).1 ht.2.2
  | .arr e, .name s, r, q, _, hu, _, _, h => by
    rw [mangle_name hu, mangle_arr] at h
    obtain ⟨c, s, rfl⟩ := List.exists_cons_of_ne_nil hu.2.1
    exact absurd (List.cons.inj h).1.symm (alnum_under (hu.1 c (by simp)))
  | .arr e, .arr f, r, q, ht, hu, _, _, h => by
    rw [mangle_arr, mangle_arr] at h
    have h := (List.cons.inj h).2
    rw [List.append_eq, List.append_eq, List.append_assoc, List.append_assoc] at h
    obtain ⟨h1, h2⟩ := mangle_unique e f _ _ ht hu (stop_under _) (stop_under _) h
    exact ⟨by rw [text, text, h1], (List.cons.inj h2).2⟩
  | .arr e, .map b k v, r, q, _, _, _, _, h => by
    rw [mangle_arr, mangle_map] at h
    exact absurd (List.cons.inj h).1 (by decide)
  | .map b k v, .name s, r, q, _, hu, _, hq, h => by
    rw [mangle_name hu, mangle_map, List.append_assoc] at h
    exact absurd (run_unique s (lit "map") _ _ hu.1 (by decide) hq (stop_under _) h.symm).1 hu.2.2
  | .map b k v, .arr e, r, q, _, _, _, _, h => by
    rw [mangle_arr, mangle_map] at h
    exact absurd (List.cons.inj h).1 (by decide)
  | .map b k v, .map b' k' v', r, q, ht, hu, _, _, h => by
    rw [mangle_map, mangle_map, List.append_assoc, List.append_assoc] at h
    have h := (List.cons.inj (List.append_cancel_left h)).2
    rw [List.append_eq, List.append_eq, List.append_assoc, List.append_assoc] at h
    obtain ⟨h1, h2⟩ := mangle_unique k k' _ _ ht.2.1 hu.2.1 (stop_under _) (stop_under _) h
    have h2 := (List.cons.inj h2).2
    rw [List.append_eq, List.append_eq, List.append_assoc, List.append_assoc] at h2
    obtain ⟨h3, h4⟩ := mangle_unique v v' _ _ ht.2.2 hu.2.2 (stop_under _) (stop_under _) h2
    exact ⟨by rw [map_text, map_text, h1, h3], (List.cons.inj h4).2⟩

theorem callName_eq (f : Str) (b : Ty) : callName f (text b) = lit "gray_fn_" ++ (f ++ ch '_' :: ch '_' :: mangle b) := by
  rw [callName, mangle, List.append_assoc, List.append_assoc]
  rfl

end Wc

/-- For functions whose names have no two underscores together and none at the end, instances for names of letters and digits, arrays
and maps of them, and names of at most 255 bytes. Missing: other function names, other types, longer names. -/
theorem C149_partial {f g : Str} (hf : Single f) (hg : Single g) {b c : Ty} (hb : Simple b) (hc : Simple c)
    (hl : f.length + 2 + (text b).length < 256) :
    defName f (text b) = .ok (callName f (text b)) ∧
    (callName f (text b) = callName g (text c) → f = g ∧ text b = text c) ∧
    callName f (text b) ≠ plainName g := by
  refine ⟨?_, ?_, ?_⟩
  · rw [defName, if_neg (by rw [bufSize]; omega), List.take_of_length_le, callName]
    · simp
    · simp [bufSize, lit]
      omega
  · intro h
    rw [callName_eq, callName_eq] at h
    obtain ⟨h1, h2⟩ := single_split f g _ _ hf hg (List.append_cancel_left h)
    refine ⟨h1, (mangle_unique b c [] [] hb hc (by intro c h; cases h) (by intro c h; cases h) ?_).1⟩
    rw [List.append_nil, List.append_nil, h2]
  · intro h
    rw [callName_eq, plainName] at h
    rw [← List.append_cancel_left h] at hg
    exact single_not _ _ hg

namespace Wc
/-- `[^Point]` and `^[Point]`. -/
def arrPtr : Ty := .arr (.ptr (nm "Point"))
def ptrArr : Ty := .ptr (.arr (nm "Point"))
def longType : Ty := .name (List.replicate 249 (ch 'a'))
end Wc

/-- Two types with the same instance; a function with the name of an instance; a name that is cut at the definition only; a name that
does not fit the buffer. -/
theorem C149_witness :
    (callName (lit "first") (text arrPtr) = callName (lit "first") (text Wc.ptrArr) ∧ text arrPtr ≠ text Wc.ptrArr) ∧
    callName (lit "first") (text (nm "int")) = plainName (lit "first__int") ∧
    defName (lit "first") (text longType) = .ok (callName (lit "first") (text longType)).dropLast ∧
    ∀ f, 254 ≤ f.length → ∀ b, defName f b = .ub := by
  refine ⟨by decide, by decide, by decide +kernel, fun f hf b => ?_⟩
  rw [defName, if_pos (by rw [bufSize]; omega)]

theorem C149_fails : ¬ C149_statement := by
  intro h
  obtain ⟨w1, w2, w3, w4, w5, w6⟩ := words
  have := (h (lit "first") (lit "first") w5 w5 arrPtr Wc.ptrArr (by simp [arrPtr, Wf, nm, isFunc, w4]) (by simp [Wc.ptrArr, Wf, nm, isFunc, w4])).2.1
    C149_witness.1.1
  exact C149_witness.1.2 this.2

example : callName (lit "first") (lit "map[string:[int]]") = lit "gray_fn_first__map_string__int__" := by decide

/-! ## Calls -/

/-- If a generic call is accepted, the types of all arguments are the types of the parameters for one type in place of the wildcard. -/
def C150_statement : Prop :=
  ∀ l : List (Ty × Ty), (∀ p ∈ l, Wf p.1 ∧ Wf p.2) → ∀ b, checkArgs (l.map fun p => (text p.1, text p.2)) none = some b →
    ∃ v, ∀ p ∈ l, text (inst v p.1) = text p.2

namespace Wc

/-- A parameter that is checked. -/
def Checked (p : Ty × Ty) : Prop :=
  Wf p.1 ∧ Wf p.2 ∧ wilds p.1 = true ∧ Sound p.1 ∧ Fits p.1 p.2 ∧ text p.2 ≠ lit "unknown" ∧ text p.2 ≠ lit "func"

theorem checkArgs_some : ∀ (l : List (Ty × Ty)) (c : Str) (b : Option Str), (∀ p ∈ l, Checked p) →
    checkArgs (l.map fun p => (text p.1, text p.2)) (some c) = some b → b = some c ∧ ∀ v, text v = c → ∀ p ∈ l, text (inst v p.1) = text p.2
  | [], c, b, _, h => ⟨by cases h; rfl, fun _ _ _ hp => by cases hp⟩
  | (t, u) :: l, c, b, hl, h => by
    obtain ⟨ht, hu, hw, hs, hf, h1, h2⟩ := hl (t, u) (by simp)
    rw [List.map_cons, checkArgs, hasWild_text t ht] at h
    have hw : wilds t = true := hw
    rw [hw, if_neg (by decide)] at h
    match hb : bindWildcard (text t) (text u) with
    | none =>
      rw [hb] at h
      have h : (if text u = lit "unknown" ∨ text u = lit "func" then _ else none) = some b := h
      rw [if_neg (fun x => x.elim h1 h2)] at h
      cases h
    | some d =>
      rw [hb] at h
      have h : (if c = d then checkArgs (l.map fun p => (text p.1, text p.2)) (some c) else none) = some b := h
      by_cases e : c = d
      · rw [if_pos e] at h
        obtain ⟨i1, i2⟩ := checkArgs_some l c b (fun p hp => hl p (by simp [hp])) h
        refine ⟨i1, fun v hv p hp => ?_⟩
        rcases List.mem_cons.1 hp with rfl | hp
        · obtain ⟨w, -, e1, e2⟩ := bind_sound t u _ d ht hu hs hf hb
          rw [text_inst v t ht, hv, e, ← e1, ← text_inst w t ht, e2]
        · exact i2 v hv p hp
      · rw [if_neg e] at h
        cases h

end Wc

/-- Calls in which every parameter has a wildcard, of the kinds that are bound soundly, and every argument a known type. Missing:
parameters without a wildcard, which are not checked. -/
theorem C150_partial (l : List (Ty × Ty)) (hl : ∀ p ∈ l, Checked p) (b : Option Str)
    (h : checkArgs (l.map fun p => (text p.1, text p.2)) none = some b) :
    ∃ v, (l ≠ [] → b = some (text v)) ∧ ∀ p ∈ l, text (inst v p.1) = text p.2 := by
  match l, hl, h with
  | [], _, _ => exact ⟨.wild, fun h => absurd rfl h, fun p hp => by cases hp⟩
  | (t, u) :: l, hl, h =>
    obtain ⟨ht, hu, hw, hs, hf, h1, h2⟩ := hl (t, u) (by simp)
    rw [List.map_cons, checkArgs, hasWild_text t ht] at h
    have hw : wilds t = true := hw
    rw [hw, if_neg (by decide)] at h
    match hb : bindWildcard (text t) (text u) with
    | none =>
      rw [hb] at h
      have h : (if text u = lit "unknown" ∨ text u = lit "func" then _ else none) = some b := h
      rw [if_neg (fun x => x.elim h1 h2)] at h
      cases h
    | some d =>
      rw [hb] at h
      have h : checkArgs (l.map fun p => (text p.1, text p.2)) (some d) = some b := h
      obtain ⟨w, -, e1, e2⟩ := bind_sound t u _ d ht hu hs hf hb
      obtain ⟨i1, i2⟩ := checkArgs_some l d b (fun p hp => hl p (by simp [hp])) h
      refine ⟨w, fun _ => by rw [i1, e1], fun p hp => ?_⟩
      rcases List.mem_cons.1 hp with rfl | hp
      · exact e2
      · exact i2 w e1 p hp

/-- `do f(a ?, n int)` may be called with a string for `n`; `do g(a [?])` with a bare `func`. -/
theorem C150_witness :
    checkArgs [(lit "?", lit "bool"), (lit "int", lit "string")] none = some (some (lit "bool")) ∧
    checkArgs [(lit "[?]", lit "func")] none = some none := by
  decide

theorem C150_fails : ¬ C150_statement := by
  intro h
  obtain ⟨w1, w2, -⟩ := words
  have wb : Word (lit "bool") := by unfold Word; decide
  obtain ⟨v, hv⟩ := h [(.wild, nm "bool"), (nm "int", nm "string")]
    (by
      intro p hp
      simp only [List.mem_cons, List.not_mem_nil, or_false] at hp
      rcases hp with rfl | rfl
      · exact ⟨by rw [Wf]; trivial, wf_nm _ wb⟩
      · exact ⟨wf_nm _ w2, wf_nm _ w1⟩) _ C150_witness.1
  have := hv (nm "int", nm "string") (by simp)
  rw [nm, inst, text] at this
  exact absurd this (by decide)

example : checkArgs [(lit "[?]", lit "[int]"), (lit "?", lit "int"), (lit "map[string:?]", lit "map[string:int]")] none =
    some (some (lit "int")) ∧ checkArgs [(lit "[?]", lit "[int]"), (lit "?", lit "float")] none = none := by decide

end Verif.Props
