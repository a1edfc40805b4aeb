import Verif.Props.TypeName

/-!
# Types taken apart

`type_from_name` on the text of a type gives back what the type is made of: the element of an array, key and value of a map, the
target of a pointer, the parameters and results of a function, the struct or enum a name stands for.
-/

namespace Verif.Props

open TypeName Str Tn

namespace Tv

/-- The built-in types (STANDARD.md 3.1) by what they hold. -/
def primOf (s : Str) : Option Kind :=
  if s ∈ ["int", "i8", "i16", "i32", "i64", "i128", "i256"].map lit then some .int
  else if s ∈ ["uint", "u8", "u16", "u32", "u64", "u128", "u256"].map lit then some .uint
  else if s ∈ ["float", "f32", "f64"].map lit then some .float
  else if s = lit "bool" then some .bool
  else if s = lit "char" then some .char
  else if s = lit "byte" then some .byte
  else if s = lit "string" then some .string
  else if s = lit "nil" then some .nil
  else if s = lit "void" then some .void
  else if s = lit "Error" then some .error
  else if s = lit "func" then some .unknown
  else none

def paramList : Tys → List (Bool × Str)
  | .nil => []
  | .cons mu t ts => (mu, text t) :: paramList ts

def typeList : Tys → List Str
  | .nil => []
  | .cons _ t ts => text t :: typeList ts

def resultList : Ret → List Str
  | .none => []
  | .one t => [text t]
  | .many t ts => text t :: typeList ts

/-- What a type is. `std m s`: `m.s` is a type of the standard library, known by its name alone. -/
def view (isEnum : Str → Bool) (std : Str → Str → Bool) : Ty → View
  | .wild => .prim .unknown (lit "unknown")
  | .name s => match primOf s with
    | some k => .prim k s
    | none => if isEnum s then .enum s else .struct s
  | .qual m s =>
    if isEnum (m ++ lit "_" ++ s) then .enum (m ++ lit "_" ++ s)
    else if std m s then .struct s else .struct (m ++ lit "_" ++ s)
  | .arr e => .array (text e)
  | .fixed e _ _ => .array (text e)
  | .map b k v => .map (text (.map b k v)) (some (text k, text v))
  | .ptr t => .pointer (text t)
  | .func ps r => .func (text (.func ps r)) (some ⟨paramList ps, resultList r⟩)

def upper : Str → Prop
  | [] => False
  | c :: _ => isUpper c = true

/-- A name is built in or begins with a capital letter. -/
def Named : Ty → Prop
  | .name s => (primOf s).isSome ∨ upper s
  | .qual _ s => upper s
  | _ => True

/-- The types of the standard library. -/
def Lib (isEnum : Str → Bool) (std : Str → Str → Bool) : Prop :=
  ∀ m s, std m s = true → ¬ upper m ∧ ch '_' ∉ m ∧ isEnum (m ++ lit "_" ++ s) = false ∧
    s ∈ ["Thread", "Mutex", "SpinLock", "Channel", "Socket", "Listener", "Database", "Router", "HttpRequest", "HttpResponse", "UUID",
      "Arena", "SourceLocation"].map lit

end Tv

open Tv

/-- The text of a type tells what it is. -/
def C145_statement : Prop :=
  ∀ isEnum std, Lib isEnum std → ∀ t, Wf t → Named t → fromName isEnum (text t) = view isEnum std t

namespace Tv

/-! ## Balanced texts -/

def special : Str := lit "()[],:"

/-- Texts with their brackets matched; `a`: commas outside of brackets, `b`: colons outside of square brackets. -/
inductive Bal : Bool → Bool → Str → Prop where
  | nil {a b} : Bal a b []
  | byte {a b c} : c ∉ special → Bal a b [c]
  | app {a b s t} : Bal a b s → Bal a b t → Bal a b (s ++ t)
  | comma {b} : Bal true b [ch ',']
  | colon {a} : Bal a true [ch ':']
  | paren {a b s} : Bal true b s → Bal a b (ch '(' :: s ++ [ch ')'])
  | brack {a b s} : Bal true true s → Bal a b (ch '[' :: s ++ [ch ']'])

theorem Bal.mono {a b s} (h : Bal a b s) : ∀ {a' b'}, (a = true → a' = true) → (b = true → b' = true) → Bal a' b' s := by
  induction h with
  | nil => intro a' b' _ _; exact .nil
  | byte h => intro a' b' _ _; exact .byte h
  | app _ _ ih1 ih2 => intro a' b' ha hb; exact .app (ih1 ha hb) (ih2 ha hb)
  | comma => intro a' b' ha _; rw [ha rfl]; exact .comma
  | colon => intro a' b' _ hb; rw [hb rfl]; exact .colon
  | paren _ ih => intro a' b' _ hb; exact .paren (ih id hb)
  | brack h _ => intro a' b' _ _; exact .brack h

theorem bal_all {a b} : ∀ s : Str, (∀ c ∈ s, c ∉ special) → Bal a b s
  | [], _ => .nil
  | c :: s, h => .app (s := [c]) (.byte (h c (by simp))) (bal_all s fun c hc => h c (by simp [hc]))

theorem word_special : ∀ n : Fin 256, (isAlnum (BitVec.ofFin n : Byte) || (BitVec.ofFin n : Byte) == ch '_') = true →
    (BitVec.ofFin n : Byte) ∉ special := by
  decide +kernel

theorem bal_word {a b} {s : Str} (h : Word s) : Bal a b s := bal_all s fun c hc => word_special c.toFin (h.2 c hc)

mutual
theorem bal_text : ∀ t : Ty, Wf t → Bal false false (text t)
  | .wild, _ => by rw [text]; exact bal_all _ (by decide)
  | .name s, h => by rw [Wf] at h; rw [text]; exact bal_word h
  | .qual m s, h => by rw [Wf] at h; rw [text]; exact .app (.app (bal_word h.1) (bal_all _ (by decide))) (bal_word h.2)
  | .arr e, h => by
    rw [Wf] at h
    rw [text]
    exact .brack ((bal_text e h.1).mono (by simp) (by simp))
  | .fixed e n _, h => by
    rw [Wf] at h
    have : text (.fixed e n ‹_›) = ch '[' :: (text e ++ ([ch ','] ++ n)) ++ [ch ']'] := by
      rw [text]; simp [lit, ch]
    rw [this]
    exact .brack (.app ((bal_text e h.1).mono (by simp) (by simp)) (.app .comma (bal_word h.2.2)))
  | .map _ k v, h => by
    rw [Wf] at h
    have : text (.map ‹_› k v) = lit "map" ++ (ch '[' :: (text k ++ ([ch ':'] ++ text v)) ++ [ch ']']) := by
      rw [text]; simp [lit, ch]
    rw [this]
    exact .app (bal_all _ (by decide)) (.brack (.app ((bal_text k h.2.1).mono (by simp) (by simp))
      (.app .colon ((bal_text v h.2.2).mono (by simp) (by simp)))))
  | .ptr t, h => by
    rw [Wf] at h
    rw [text]
    exact .app (bal_all _ (by decide)) (bal_text t h)
  | .func ps r, h => by
    rw [Wf] at h
    have : text (.func ps r) = lit "func" ++ (ch '(' :: textP ps ++ [ch ')']) ++ textR r := by
      rw [text]; simp [lit, ch]
    rw [this]
    exact .app (.app (bal_all _ (by decide)) (.paren (bal_textP ps h.1))) (bal_textR r h.2)
theorem bal_textP : ∀ ts : Tys, WfP ts → Bal true false (textP ts)
  | .nil, _ => by rw [textP]; exact .nil
  | .cons mu t ts, h => by
    rw [WfP] at h
    rw [textP]
    refine .app (.app ?_ ((bal_text t h.1).mono (by simp) (by simp))) (bal_textQ ts h.2)
    cases mu
    · exact .nil
    · exact bal_all _ (by decide)
theorem bal_textQ : ∀ ts : Tys, WfP ts → Bal true false (textQ ts)
  | .nil, _ => by rw [textQ]; exact .nil
  | .cons mu t ts, h => by
    rw [WfP] at h
    rw [textQ]
    refine .app (.app .comma (.app ?_ ((bal_text t h.1).mono (by simp) (by simp)))) (bal_textQ ts h.2)
    cases mu
    · exact .nil
    · exact bal_all _ (by decide)
theorem bal_textN : ∀ ts : Tys, WfN ts → Bal true false (textQ ts)
  | .nil, _ => by rw [textQ]; exact .nil
  | .cons mu t ts, h => by
    rw [WfN] at h
    rw [textQ, h.1]
    exact .app (.app .comma (.app .nil ((bal_text t h.2.1).mono (by simp) (by simp)))) (bal_textN ts h.2.2.2)
theorem bal_textR : ∀ r : Ret, WfR r → Bal false false (textR r)
  | .none, _ => by rw [textR]; exact .nil
  | .one t, h => by rw [WfR] at h; rw [textR]; exact .app (bal_all _ (by decide)) (bal_text t h.1)
  | .many t ts, h => by
    rw [WfR] at h
    have : textR (.many t ts) = lit "->" ++ (ch '(' :: (text t ++ textQ ts) ++ [ch ')']) := by
      rw [textR]; simp [lit, ch]
    rw [this]
    exact .app (bal_all _ (by decide)) (.paren (.app ((bal_text t h.1).mono (by simp) (by simp)) (bal_textN ts h.2.2)))
end

theorem not_special {c : Byte} (h : c ∉ special) :
    c ≠ ch '(' ∧ c ≠ ch ')' ∧ c ≠ ch '[' ∧ c ≠ ch ']' ∧ c ≠ ch ',' ∧ c ≠ ch ':' := by
  refine ⟨?_, ?_, ?_, ?_, ?_, ?_⟩ <;> (rintro rfl; exact absurd h (by decide))

/-! ## Scanning -/

theorem findClose_byte (c : Byte) (h1 : c ≠ ch '(') (h2 : c ≠ ch ')') (i : Nat) (d : Int) (r : Str) :
    findClose i d (c :: r) = findClose (i + 1) d r := by
  rw [findClose, if_neg h1, if_neg h2]

theorem findClose_bal {a b s} (h : Bal a b s) : ∀ (i : Nat) (d : Int) (r : Str), 1 ≤ d →
    findClose i d (s ++ r) = findClose (i + s.length) d r := by
  induction h with
  | nil => intro i d r _; rfl
  | byte h => intro i d r _; exact findClose_byte _ (not_special h).1 (not_special h).2.1 i d r
  | @app _ _ s t _ _ ih1 ih2 =>
    intro i d r hd
    rw [List.append_assoc, ih1 _ _ _ hd, ih2 _ _ _ hd, List.length_append, Nat.add_assoc]
  | comma => intro i d r _; exact findClose_byte _ (by decide) (by decide) i d r
  | colon => intro i d r _; exact findClose_byte _ (by decide) (by decide) i d r
  | @paren _ _ s _ ih =>
    intro i d r hd
    have e : (ch '(' :: s ++ [ch ')']) ++ r = ch '(' :: (s ++ ch ')' :: r) := by simp
    rw [e, findClose, if_pos rfl, ih _ _ _ (by omega), findClose, if_neg (by decide), if_pos rfl, if_neg (by omega)]
    congr 1
    · simp; omega
    · omega
  | @brack _ _ s _ ih =>
    intro i d r hd
    have e : (ch '[' :: s ++ [ch ']']) ++ r = ch '[' :: (s ++ ch ']' :: r) := by simp
    rw [e, findClose_byte _ (by decide) (by decide), ih _ _ _ hd, findClose_byte _ (by decide) (by decide)]
    congr 1
    simp; omega

theorem split_byte (c : Byte) (hc : c ∉ lit "()[]") (d : Int) (h : ¬ (d = 0 ∧ c = ch ',')) (seg r : Str) :
    split d seg (c :: r) = split d (seg ++ [c]) r := by
  have h1 : ¬ (c = ch '(' ∨ c = ch '[') := by rintro (rfl | rfl) <;> exact hc (by decide)
  have h2 : ¬ (c = ch ')' ∨ c = ch ']') := by rintro (rfl | rfl) <;> exact hc (by decide)
  rw [split]
  simp only [if_neg h1, if_neg h2, if_neg h]

theorem split_open (c : Byte) (hc : c = ch '(' ∨ c = ch '[') (d : Int) (seg r : Str) :
    split d seg (c :: r) = split (d + 1) (seg ++ [c]) r := by
  have hn : ¬ (d + 1 = 0 ∧ c = ch ',') := by rintro ⟨-, rfl⟩; exact absurd hc (by decide)
  rw [split]
  simp only [if_pos hc, if_neg hn]

theorem split_close (c : Byte) (hc : c = ch ')' ∨ c = ch ']') (d : Int) (seg r : Str) :
    split d seg (c :: r) = split (d - 1) (seg ++ [c]) r := by
  have h1 : ¬ (c = ch '(' ∨ c = ch '[') := by rcases hc with rfl | rfl <;> decide
  have hn : ¬ (d - 1 = 0 ∧ c = ch ',') := by rintro ⟨-, rfl⟩; exact absurd hc (by decide)
  rw [split]
  simp only [if_neg h1, if_pos hc, if_neg hn]

theorem split_bal {a b s} (h : Bal a b s) : ∀ (d : Int) (seg r : Str), 0 ≤ d → (a = true → 1 ≤ d) →
    split d seg (s ++ r) = split d (seg ++ s) r := by
  induction h with
  | nil => intro d seg r _ _; simp
  | byte h =>
    intro d seg r _ _
    have := not_special h
    have sub : ∀ x ∈ lit "()[]", x ∈ special := by decide
    exact split_byte _ (fun hm => h (sub _ hm)) d (fun hh => this.2.2.2.2.1 hh.2) seg r
  | app _ _ ih1 ih2 =>
    intro d seg r h0 h1
    rw [List.append_assoc, ih1 _ _ _ h0 h1, ih2 _ _ _ h0 h1, List.append_assoc]
  | comma => intro d seg r _ h1; exact split_byte _ (by decide) d (by have := h1 rfl; omega) seg r
  | colon => intro d seg r _ _; exact split_byte _ (by decide) d (by rintro ⟨-, h⟩; exact absurd h (by decide)) seg r
  | @paren _ _ s _ ih =>
    intro d seg r h0 _
    have e : (ch '(' :: s ++ [ch ')']) ++ r = ch '(' :: (s ++ ch ')' :: r) := by simp
    rw [e, split_open _ (.inl rfl), ih _ _ _ (by omega) (fun _ => by omega), split_close _ (.inl rfl)]
    simp
  | @brack _ _ s _ ih =>
    intro d seg r h0 _
    have e : (ch '[' :: s ++ [ch ']']) ++ r = ch '[' :: (s ++ ch ']' :: r) := by simp
    rw [e, split_open _ (.inr rfl), ih _ _ _ (by omega) (fun _ => by omega), split_close _ (.inr rfl)]
    simp

/-! ## Functions -/

/-- The parameters as they are written. -/
def segs : Tys → List Str
  | .nil => []
  | .cons mu t ts => ((if mu then lit "&" else []) ++ text t) :: segs ts

/-- All are well-formed. -/
def All (ts : Tys) : Prop := ∀ t, ts.Mem t → Wf t

theorem all_P : ∀ ts, WfP ts → All ts := fun _ h _ ht => wf_mem h ht
theorem all_N : ∀ ts, WfN ts → All ts := fun _ h _ ht => wfN_mem h ht

theorem bal_amp (mu : Bool) (t : Ty) (h : Wf t) : Bal false false ((if mu then lit "&" else []) ++ text t) := by
  refine .app ?_ (bal_text t h)
  cases mu
  · exact .nil
  · exact bal_all _ (by decide)

theorem split_Q : ∀ (ts : Tys) (seg : Str), All ts → split 0 seg (textQ ts) = seg :: segs ts
  | .nil, seg, _ => by rw [textQ, segs]; rfl
  | .cons mu t ts, seg, h => by
    have e : textQ (.cons mu t ts) = ch ',' :: (((if mu then lit "&" else []) ++ text t) ++ textQ ts) := by
      rw [textQ]; simp [lit, ch]
    have hs : split 0 seg (ch ',' :: (((if mu then lit "&" else []) ++ text t) ++ textQ ts)) =
        seg :: split 0 [] (((if mu then lit "&" else []) ++ text t) ++ textQ ts) := by
      rw [split]
      simp [ch]
    rw [e, hs, split_bal (bal_amp mu t (h t (.inl rfl))) 0 _ _ (by omega) (by simp), split_Q ts _ (fun u hu => h u (.inr hu)), segs]
    simp

theorem splitTop_P (ts : Tys) (h : All ts) : splitTop (textP ts) = segs ts := by
  match ts, h with
  | .nil, _ => rw [textP, segs]; rfl
  | .cons mu t ts, h =>
    have hne : textP (.cons mu t ts) ≠ [] := by
      rw [textP]
      simp [text_ne t (h t (.inl rfl))]
    rw [splitTop, if_neg hne, textP, split_bal (bal_amp mu t (h t (.inl rfl))) 0 _ _ (by omega) (by simp),
      split_Q ts _ (fun u hu => h u (.inr hu)), segs]
    simp

/-- A text does not begin with `&`, `(` or `-`. -/
theorem head_text : ∀ t : Ty, Wf t → ∃ c s, text t = c :: s ∧ c ∉ lit "&(-"
  | .wild, _ => ⟨_, _, by rw [text]; rfl, by decide⟩
  | .name s, h => by
    rw [Wf] at h
    obtain ⟨c, s, rfl⟩ := List.exists_cons_of_ne_nil h.1
    have hw : ∀ n : Fin 256, (isAlnum (BitVec.ofFin n : Byte) || (BitVec.ofFin n : Byte) == ch '_') = true →
      (BitVec.ofFin n : Byte) ∉ lit "&(-" := by decide +kernel
    exact ⟨c, s, by rw [text], hw c.toFin (h.2 c (by simp))⟩
  | .qual m s, h => by
    rw [Wf] at h
    obtain ⟨c, m, rfl⟩ := List.exists_cons_of_ne_nil h.1.1
    have hw : ∀ n : Fin 256, (isAlnum (BitVec.ofFin n : Byte) || (BitVec.ofFin n : Byte) == ch '_') = true →
      (BitVec.ofFin n : Byte) ∉ lit "&(-" := by decide +kernel
    exact ⟨c, m ++ lit "_" ++ s, by rw [text]; rfl, hw c.toFin (h.1.2 c (by simp))⟩
  | .arr e, _ => ⟨_, _, by rw [text]; rfl, by decide⟩
  | .fixed e n _, _ => ⟨_, _, by rw [text]; rfl, by decide⟩
  | .map _ k v, _ => ⟨_, _, by rw [text]; rfl, by decide⟩
  | .ptr t, _ => ⟨_, _, by rw [text]; rfl, by decide⟩
  | .func ps r, _ => ⟨_, _, by rw [text]; rfl, by decide⟩

theorem sigParam_text (mu : Bool) (t : Ty) (h : Wf t) : sigParam ((if mu then lit "&" else []) ++ text t) = (mu, text t) := by
  obtain ⟨c, s, e, hc⟩ := head_text t h
  cases mu
  · have : ¬ ((c :: s).take 1 = lit "&") := by
      intro h
      have : c = ch '&' := by simpa [lit] using h
      subst this
      exact hc (by decide)
    rw [e]
    exact if_neg this
  · exact if_pos rfl

theorem sigParams_segs : ∀ ts : Tys, All ts → (segs ts).map sigParam = paramList ts
  | .nil, _ => rfl
  | .cons mu t ts, h => by
    rw [segs, paramList, List.map_cons, sigParam_text mu t (h t (.inl rfl)), sigParams_segs ts fun u hu => h u (.inr hu)]

theorem segs_N : ∀ ts : Tys, WfN ts → segs ts = typeList ts
  | .nil, _ => rfl
  | .cons mu t ts, h => by
    rw [WfN] at h
    rw [segs, typeList, h.1, segs_N ts h.2.2.2]
    rfl

theorem sigReturns_text (r : Ret) (h : WfR r) : sigReturns (textR r) = resultList r := by
  match r, h with
  | .none, _ => rw [textR]; rfl
  | .one t, h =>
    rw [WfR] at h
    obtain ⟨c, s, e, hc⟩ := head_text t h.1
    have h1 : ¬ ((text t).take 1 = lit "(") := by
      intro h
      rw [e] at h
      have : c = ch '(' := by simpa [lit] using h
      subst this
      exact hc (by decide)
    have : sigReturns (lit "->" ++ text t) = if (text t).take 1 = lit "(" then
        (if (text t).getLast? = some (ch ')') then splitTop (((text t).drop 1).dropLast) else [])
        else if text t = lit "void" then [] else [text t] := rfl
    rw [textR, this, if_neg h1, if_neg h.2]
    rfl
  | .many t ts, h =>
    rw [WfR] at h
    have hx : sigReturns (textR (.many t ts)) =
        if (lit "(" ++ (text t ++ textQ ts) ++ lit ")").getLast? = some (ch ')') then
          splitTop ((text t ++ textQ ts ++ lit ")").dropLast) else [] := by
      rw [textR, List.append_assoc (lit "->"), ← List.append_assoc (lit "("), List.append_assoc (lit "(")]
      rfl
    have hp : text t ++ textQ ts = textP (.cons false t ts) := by rw [textP]; rfl
    have hl : (lit "(" ++ (text t ++ textQ ts) ++ lit ")").getLast? = some (ch ')') := by
      show (lit "(" ++ (text t ++ textQ ts) ++ [ch ')']).getLast? = _
      rw [List.getLast?_append]
      rfl
    have hd : (text t ++ textQ ts ++ lit ")").dropLast = text t ++ textQ ts := by
      show (text t ++ textQ ts ++ [ch ')']).dropLast = _
      rw [List.dropLast_concat]
    have ha : All (.cons false t ts) := by
      intro u hu
      rcases hu with rfl | hu
      · exact h.1
      · exact wfN_mem h.2.2 hu
    rw [hx, if_pos hl, hd, hp, splitTop_P _ ha, segs, segs_N ts h.2.2]
    rfl

theorem parseSig_text (ps : Tys) (r : Ret) (h : Wf (.func ps r)) :
    parseSig (text (.func ps r)) = some ⟨paramList ps, resultList r⟩ := by
  rw [Wf] at h
  have e : text (.func ps r) = lit "func(" ++ (textP ps ++ ch ')' :: textR r) := by rw [text]; simp [lit, ch]
  have hd : (text (.func ps r)).drop 4 = ch '(' :: (textP ps ++ ch ')' :: textR r) := by rw [e]; rfl
  have hc : findClose 4 0 ((text (.func ps r)).drop 4) = some (5 + (textP ps).length) := by
    rw [hd, findClose, if_pos rfl, findClose_bal (bal_textP ps h.1) _ _ _ (by omega), findClose, if_neg (by decide), if_pos rfl,
      if_pos (by omega)]
  have ht : ((text (.func ps r)).take (5 + (textP ps).length)).drop 5 = textP ps := by
    have : (lit "func(").length = 5 := rfl
    rw [e, List.take_append, List.drop_append, this, List.take_of_length_le (by omega)]
    simp [lit]
  have ha : (text (.func ps r)).drop (5 + (textP ps).length + 1) = textR r := by
    have e' : text (.func ps r) = (lit "func(" ++ textP ps ++ [ch ')']) ++ textR r := by rw [e]; simp
    rw [e', List.drop_left' (by simp [lit]; omega)]
  rw [parseSig, hc]
  show some (Sig.mk _ _) = _
  rw [ht, ha, splitTop_P ps (all_P ps h.1), sigParams_segs ps (all_P ps h.1), sigReturns_text r h.2]

/-! ## Names -/

theorem lookup_mem {β : Type} : ∀ (l : List (Str × β)) (s : Str) (v : β), l.lookup s = some v → (s, v) ∈ l
  | [], _, _, h => by cases h
  | (k, w) :: l, s, v, h => by
    rw [List.lookup] at h
    by_cases e : s = k
    · subst e
      simp only [beq_self_eq_true] at h
      cases h
      simp
    · have : (s == k) = false := by simpa using e
      rw [this] at h
      exact List.mem_cons_of_mem _ (lookup_mem l s v h)

/-- The table is the list of built-in types. -/
theorem lookup_prim (s : Str) : builtins.lookup s = primOf s := by
  have h1 : ∀ e ∈ builtins, primOf e.1 = some e.2 := by decide
  have h2 : ∀ e ∈ (["int", "i8", "i16", "i32", "i64", "i128", "i256", "uint", "u8", "u16", "u32", "u64", "u128", "u256", "float", "f32",
    "f64", "bool", "char", "byte", "string", "nil", "void", "Error", "func"].map lit), (builtins.lookup e).isSome := by decide
  match h : builtins.lookup s with
  | some k => exact (h1 _ (lookup_mem _ _ _ h)).symm
  | none =>
    match hp : primOf s with
    | none => rfl
    | some k =>
      have : s ∈ (["int", "i8", "i16", "i32", "i64", "i128", "i256", "uint", "u8", "u16", "u32", "u64", "u128", "u256", "float", "f32",
    "f64", "bool", "char", "byte", "string", "nil", "void", "Error", "func"].map lit) := by
        refine Classical.byContradiction fun hn => ?_
        simp only [List.map_cons, List.map_nil, List.mem_cons, List.not_mem_nil, or_false, not_or] at hn
        obtain ⟨a1, a2, a3, a4, a5, a6, a7, a8, a9, a10, a11, a12, a13, a14, a15, a16, a17, a18, a19, a20, a21, a22, a23, a24, a25⟩ := hn
        simp only [primOf, List.map_cons, List.map_nil, List.mem_cons, List.not_mem_nil, or_false, a1, a2, a3, a4, a5, a6, a7, a8, a9, a10,
          a11, a12, a13, a14, a15, a16, a17, a18, a19, a20, a21, a22, a23, a24, a25, if_false] at hp
        cases hp
      have := h2 s this
      rw [h] at this
      cases this

/-- The table is sorted, as `bsearch` needs it. -/
theorem builtins_sorted : (builtins.map (·.1)).Pairwise (fun a b => (a.map (·.toNat)) < (b.map (·.toNat))) := by decide

/-- No built-in type has a byte that is not a letter or a digit. -/
theorem lookup_none {s : Str} {c : Byte} (hc : c ∈ s) (ha : isAlnum c = false) : builtins.lookup s = none := by
  have h1 : ∀ e ∈ builtins, ∀ c ∈ e.1, isAlnum c = true := by decide
  match h : builtins.lookup s with
  | none => rfl
  | some k =>
    have := h1 _ (lookup_mem _ _ _ h) c hc
    rw [ha] at this
    cases this

theorem word_not (c : Byte) (h : (isAlnum c || c == ch '_') = true) : c ∉ lit "([^?.:," := by
  have hw : ∀ n : Fin 256, (isAlnum (BitVec.ofFin n : Byte) || (BitVec.ofFin n : Byte) == ch '_') = true →
      (BitVec.ofFin n : Byte) ∉ lit "([^?.:," := by decide +kernel
  exact hw c.toFin h

/-- For a word, only the table and the rules for user types matter. -/
theorem fromName_word (isEnum : Str → Bool) {s : Str} (h : ∀ c ∈ s, (isAlnum c || c == ch '_') = true) :
    fromName isEnum s = match builtins.lookup s with
      | some k => .prim k s
      | none => userType isEnum s := by
  have hn : ∀ c, c ∈ lit "([^?.:," → c ∉ s := fun c hc hm => word_not c (h c hm) hc
  have h1 : ¬ (s.take 5 = lit "func(") := fun e => hn (ch '(') (by decide) (List.mem_of_mem_take (i := 5) (by rw [e]; decide))
  have h2 : ¬ (s.take 1 = lit "^") := fun e => hn (ch '^') (by decide) (List.mem_of_mem_take (i := 1) (by rw [e]; decide))
  have h3 : ¬ (s.take 1 = lit "[") := fun e => hn (ch '[') (by decide) (List.mem_of_mem_take (i := 1) (by rw [e]; decide))
  have h4 : ¬ (s.take 4 = lit "map[") := fun e => hn (ch '[') (by decide) (List.mem_of_mem_take (i := 4) (by rw [e]; decide))
  rw [fromName, if_neg h1]
  cases builtins.lookup s with
  | some k => rfl
  | none =>
    show (if s.take 1 = lit "^" then _ else _) = _
    rw [if_neg h2, if_neg (fun e => h3 e.1), if_neg h4]

theorem any_not {p : Byte → Bool} {s : Str} {c : Byte} (hp : ∀ x, p x = (x != c)) (h : c ∉ s) : s.any (fun c => !p c) = false := by
  rw [List.any_eq_false]
  intro x hx
  rw [hp]
  simp
  rintro rfl
  exact h hx

theorem upper_iff (s : Str) : startsUpper s = true ↔ upper s := by
  cases s <;> simp [startsUpper, upper]

theorem takeWhile_all {p : Byte → Bool} {c : Byte} (hp : ∀ x, p x = (x != c)) {s : Str} (h : c ∉ s) (r : Str) :
    (s ++ c :: r).takeWhile p = s ∧ (s ++ c :: r).dropWhile p = c :: r := by
  have hs : ∀ x ∈ s, p x = true := by
    intro x hx
    rw [hp]
    simp
    rintro rfl
    exact h hx
  have hc : p c = false := by rw [hp]; simp
  constructor
  · rw [List.takeWhile_append_of_pos hs, List.takeWhile_cons_of_neg (by simp [hc]), List.append_nil]
  · rw [List.dropWhile_append_of_pos hs, List.dropWhile_cons_of_neg (by simp [hc])]

theorem view_upper (isEnum : Str → Bool) {s : Str} (h : ∀ c ∈ s, (isAlnum c || c == ch '_') = true) (hu : upper s) :
    userType isEnum s = if isEnum s then .enum s else .struct s := by
  have hd : s.any (fun c => !notDot c) = false :=
    any_not (c := ch '.') (fun _ => rfl) (fun hm => word_not _ (h _ hm) (by decide))
  rw [userType, hd, (upper_iff s).2 hu]
  rfl

/-- Names. -/
theorem view_name (isEnum : Str → Bool) (std : Str → Str → Bool) {s : Str} (h : Wf (.name s)) (hn : Named (.name s)) :
    fromName isEnum (text (.name s)) = view isEnum std (.name s) := by
  rw [Wf] at h
  rw [text, fromName_word isEnum h.2, lookup_prim, view]
  rcases hn with hn | hn
  · obtain ⟨k, hk⟩ := Option.isSome_iff_exists.1 hn
    rw [hk]
  · rw [view_upper isEnum h.2 hn]

/-- Names from modules whose name has no underscore, but for user types with the name of a type of the library. -/
theorem view_qual (isEnum : Str → Bool) (std : Str → Str → Bool) (hs : Lib isEnum std) {m s : Str} (h : Wf (.qual m s))
    (hn : Named (.qual m s)) (hm : upper m ∨ (ch '_' ∉ m ∧ (s ∈ opaques → std m s = true ∨ isEnum (m ++ lit "_" ++ s) = true))) :
    fromName isEnum (text (.qual m s)) = view isEnum std (.qual m s) := by
  rw [Wf] at h
  have hw : ∀ c ∈ m ++ lit "_" ++ s, (isAlnum c || c == ch '_') = true := by
    intro c hc
    simp only [List.mem_append] at hc
    rcases hc with (hc | hc) | hc
    · exact h.1.2 c hc
    · have : c = ch '_' := by simpa [lit] using hc
      subst this
      decide
    · exact h.2.2 c hc
  have hl : builtins.lookup (m ++ lit "_" ++ s) = none := lookup_none (c := ch '_') (by simp [lit, ch]) (by decide)
  have hd : (m ++ lit "_" ++ s).any (fun c => !notDot c) = false :=
    any_not (c := ch '.') (fun _ => rfl) (fun hm => word_not _ (hw _ hm) (by decide))
  rw [text, fromName_word isEnum hw, hl, view]
  show userType isEnum (m ++ lit "_" ++ s) = _
  by_cases hu : upper m
  · obtain ⟨c, m, rfl⟩ := List.exists_cons_of_ne_nil h.1.1
    rw [view_upper isEnum hw hu]
    have : std (c :: m) s = false := by
      refine Classical.byContradiction fun hc => ?_
      exact (hs _ _ (by simpa using hc)).1 hu
    rw [this]
    rfl
  · obtain ⟨hm, ho⟩ := hm.resolve_left hu
    obtain ⟨c, m, rfl⟩ := List.exists_cons_of_ne_nil h.1.1
    have hu' : startsUpper (c :: m ++ lit "_" ++ s) = false := by
      refine Classical.byContradiction fun hc => ?_
      exact hu ((upper_iff (c :: m)).1 (by simpa [startsUpper] using hc))
    have hany : (c :: m ++ lit "_" ++ s).any (fun c => !notUnderscore c) = true := by
      rw [List.any_eq_true]
      exact ⟨ch '_', by simp [lit, ch], by decide⟩
    have hbase : (((c :: m) ++ lit "_" ++ s).dropWhile notUnderscore).drop 1 = s := by
      have := (takeWhile_all (p := notUnderscore) (fun _ => rfl) hm s).2
      have e : (c :: m) ++ lit "_" ++ s = (c :: m) ++ ch '_' :: s := by simp [lit, ch]
      rw [e, this]
      rfl
    simp only [userType, hd, hu', hany, hbase, (upper_iff s).2 hn]
    show (if isEnum _ then View.enum _ else if s ∈ opaques then View.struct s else View.struct _) = _
    by_cases he : isEnum (c :: m ++ lit "_" ++ s) = true
    · rw [if_pos he, if_pos he]
    · rw [if_neg he, if_neg he]
      by_cases hop : s ∈ opaques
      · rw [if_pos hop, if_pos ((ho hop).resolve_right he)]
      · rw [if_neg hop, if_neg (fun hc => hop (hs _ _ hc).2.2.2)]

/-! ## Built types -/

theorem take_ne {c d : Byte} {s t : Str} {n : Nat} (h : c ≠ d) : ¬ ((c :: s).take (n + 1) = d :: t) := by
  rw [List.take_succ_cons]
  exact fun e => h (List.cons.inj e).1

theorem view_func (isEnum : Str → Bool) (std : Str → Str → Bool) (ps : Tys) (r : Ret) (h : Wf (.func ps r)) :
    fromName isEnum (text (.func ps r)) = view isEnum std (.func ps r) := by
  have h1 : (text (.func ps r)).take 5 = lit "func(" := by
    rw [text, List.append_assoc, List.append_assoc]
    rfl
  rw [fromName, if_pos h1, parseSig_text ps r h, view]

theorem view_ptr (isEnum : Str → Bool) (std : Str → Str → Bool) (t : Ty) :
    fromName isEnum (text (.ptr t)) = view isEnum std (.ptr t) := by
  have hl : builtins.lookup (text (.ptr t)) = none := lookup_none (c := ch '^') (by rw [text]; simp [lit, ch]) (by decide)
  have h1 : ¬ ((text (.ptr t)).take 5 = lit "func(") := by
    rw [text]
    intro h
    exact take_ne (by decide) h
  rw [fromName, if_neg h1, hl]
  show (if (text (.ptr t)).take 1 = lit "^" then View.pointer ((text (.ptr t)).drop 1) else _) = _
  rw [text, if_pos (show (lit "^" ++ text t).take 1 = lit "^" from rfl)]
  rfl

theorem view_map (isEnum : Str → Bool) (std : Str → Str → Bool) (b : Bool) (k v : Ty) (h : Wf (.map b k v)) :
    fromName isEnum (text (.map b k v)) = view isEnum std (.map b k v) := by
  have e : text (.map b k v) = lit "map[" ++ (text k ++ ch ':' :: (text v ++ [ch ']'])) := by rw [text]; simp [lit, ch]
  rw [Wf] at h
  have hk : ch ':' ∉ text k := by
    match k, h.1, h.2.1 with
    | .wild, _, _ => rw [text]; decide
    | .name s, _, hw =>
      rw [Wf] at hw
      rw [text]
      exact fun hm => word_not _ (hw.2 _ hm) (by decide)
    | .qual m s, _, hw =>
      rw [Wf] at hw
      rw [text]
      intro hm
      simp only [List.mem_append] at hm
      rcases hm with (hm | hm) | hm
      · exact word_not _ (hw.1.2 _ hm) (by decide)
      · exact absurd hm (by decide)
      · exact word_not _ (hw.2.2 _ hm) (by decide)
  have hl : builtins.lookup (text (.map b k v)) = none := lookup_none (c := ch '[') (by rw [e]; simp [lit, ch]) (by decide)
  have h1 : ¬ ((text (.map b k v)).take 5 = lit "func(") := by
    rw [e]
    intro h
    exact take_ne (by decide) h
  have h2 : ¬ ((text (.map b k v)).take 1 = lit "^") := by rw [e]; exact take_ne (by decide)
  have h3 : ¬ ((text (.map b k v)).take 1 = lit "[") := by rw [e]; exact take_ne (by decide)
  have h4 : (text (.map b k v)).take 4 = lit "map[" := by rw [e]; rfl
  have h5 : (text (.map b k v)).drop 4 = text k ++ ch ':' :: (text v ++ [ch ']']) := by rw [e]; rfl
  have hany : (text k ++ ch ':' :: (text v ++ [ch ']'])).any (fun c => !notColon c) = true := by
    rw [List.any_eq_true]
    exact ⟨ch ':', by simp, by decide⟩
  obtain ⟨t1, t2⟩ := takeWhile_all (p := notColon) (fun _ => rfl) hk (text v ++ [ch ']'])
  rw [fromName, if_neg h1, hl]
  show (if (text (.map b k v)).take 1 = lit "^" then _ else _) = _
  rw [if_neg h2, if_neg (fun h => h3 h.1), if_pos h4, mapView, h5]
  simp only [hany, if_true, t1, t2]
  rw [view]
  show View.map _ (some (_, if (text v ++ [ch ']']).getLast? = some (ch ']') then (text v ++ [ch ']']).dropLast else _)) = _
  rw [if_pos (by rw [List.getLast?_append]; rfl), List.dropLast_concat]

theorem fromName_array (isEnum : Str → Bool) (e n : Str) (hne : e ≠ []) (hn : n = [] ∨ n.head? = some (ch ',')) :
    fromName isEnum (lit "[" ++ e ++ n ++ lit "]") = .array (e.takeWhile notComma) := by
  have hl : builtins.lookup (lit "[" ++ e ++ n ++ lit "]") = none := lookup_none (c := ch '[') (by simp [lit, ch]) (by decide)
  have h1 : ¬ ((lit "[" ++ e ++ n ++ lit "]").take 5 = lit "func(") := by
    intro h
    exact take_ne (by decide) h
  have h2 : ¬ ((lit "[" ++ e ++ n ++ lit "]").take 1 = lit "^") := take_ne (by decide)
  have hpos : 0 < e.length := List.length_pos_iff.2 hne
  have hlast : (lit "[" ++ e ++ n ++ lit "]").getLast? = some (ch ']') := by
    show (lit "[" ++ e ++ n ++ [ch ']']).getLast? = _
    rw [List.getLast?_append]
    rfl
  have hin : ((lit "[" ++ e ++ n ++ lit "]").drop 1).dropLast = e ++ n := by
    show (e ++ n ++ [ch ']']).dropLast = _
    rw [List.dropLast_concat]
  rw [fromName, if_neg h1, hl]
  show (if (lit "[" ++ e ++ n ++ lit "]").take 1 = lit "^" then _ else _) = _
  rw [if_neg h2, if_pos ⟨rfl, by simp [lit]; omega, hlast⟩, hin]
  congr 1
  rcases hn with rfl | hn
  · rw [List.append_nil]
  · obtain ⟨m, rfl⟩ : ∃ m, n = ch ',' :: m := by
      cases n with
      | nil => cases hn
      | cons c m => exact ⟨m, by simp at hn; rw [hn]⟩
    clear hin hlast hl h1 h2 hpos hne
    induction e with
    | nil => rfl
    | cons c e ih =>
      by_cases hc : notComma c = true
      · rw [List.cons_append, List.takeWhile_cons_of_pos hc, List.takeWhile_cons_of_pos hc, ih]
      · rw [List.cons_append, List.takeWhile_cons_of_neg hc, List.takeWhile_cons_of_neg hc]

theorem takeWhile_comma (e : Str) : e.takeWhile notComma = e ↔ ch ',' ∉ e := by
  induction e with
  | nil => simp
  | cons c e ih =>
    by_cases hc : c = ch ','
    · subst hc
      rw [List.takeWhile_cons_of_neg (by decide)]
      simp
    · have hn : notComma c = true := by
        show (c != ch ',') = true
        simpa using hc
      rw [List.takeWhile_cons_of_pos hn, List.cons.injEq, ih]
      simp [Ne.symm hc]

end Tv

/-- Arrays: exactly those whose element type is written without a comma. -/
theorem C145_arrays (isEnum : Str → Bool) (std : Str → Str → Bool) (e : Ty) (h : Wf e) (n : Str) (b : Bool) :
    (fromName isEnum (text (.arr e)) = view isEnum std (.arr e) ↔ ch ',' ∉ text e) ∧
    (fromName isEnum (text (.fixed e n b)) = view isEnum std (.fixed e n b) ↔ ch ',' ∉ text e) := by
  have h1 := fromName_array isEnum (text e) [] (text_ne e h) (.inl rfl)
  have h2 := fromName_array isEnum (text e) (lit "," ++ n) (text_ne e h) (.inr rfl)
  rw [List.append_nil] at h1
  rw [← List.append_assoc] at h2
  constructor
  · rw [text, h1, view, View.array.injEq, takeWhile_comma]
  · rw [text, h2, view, View.array.injEq, takeWhile_comma]

namespace Tv

/-- The types that are taken apart as they should be. -/
def Clear (isEnum : Str → Bool) (std : Str → Str → Bool) : Ty → Prop
  | .qual m s => upper m ∨ (ch '_' ∉ m ∧ (s ∈ opaques → std m s = true ∨ isEnum (m ++ lit "_" ++ s) = true))
  | .arr e => ch ',' ∉ text e
  | .fixed e _ _ => ch ',' ∉ text e
  | _ => True

/-- `[map[string:[int,3]]]`. -/
def mapArray : Ty := .arr (.map false (nm "string") (.fixed (nm "int") (lit "3") false))
/-- `my_mod.Point`. -/
def underMod : Ty := .qual (lit "my_mod") (lit "Point")
/-- `game.Thread`, of a module of the program. -/
def gameThread : Ty := .qual (lit "game") (lit "Thread")

end Tv

/-- All built-in types and names, maps, pointers and functions, arrays whose element type has no comma, and names from modules.
Missing: arrays whose element type has a comma, names from modules with an underscore in their name, names from modules that are also
names of types of the library. -/
theorem C145_partial (isEnum : Str → Bool) (std : Str → Str → Bool) (hs : Lib isEnum std) {t : Ty} (h : Wf t) (hn : Named t)
    (hc : Clear isEnum std t) : fromName isEnum (text t) = view isEnum std t := by
  match t, h, hn, hc with
  | .wild, _, _, _ => rw [text, view]; rfl
  | .name s, h, hn, _ => exact view_name isEnum std h hn
  | .qual m s, h, hn, hc => exact view_qual isEnum std hs h hn hc
  | .arr e, h, _, hc => rw [Wf] at h; exact (C145_arrays isEnum std e h.1 [] true).1.2 hc
  | .fixed e n b, h, _, hc => rw [Wf] at h; exact (C145_arrays isEnum std e h.1 n b).2.2 hc
  | .map b k v, h, _, _ => exact view_map isEnum std b k v h
  | .ptr t, _, _, _ => exact view_ptr isEnum std t
  | .func ps r, h, _, _ => exact view_func isEnum std ps r h

/-- The parser reads all three, and each is taken for something else: the element type of the array is cut at its comma, the first name
is unknown, the second is the type of the library. -/
theorem C145_witness :
    (∀ t ∈ [mapArray, underMod, gameThread], Wf t ∧ Named t ∧ parseType (toks t) = some (text t, [])) ∧
    fromName (fun _ => false) (text mapArray) = .array (lit "map[string:[int") ∧
    fromName (fun _ => false) (text underMod) = .prim .unknown (lit "unknown") ∧
    fromName (fun _ => false) (text gameThread) = .struct (lit "Thread") := by
  have w : Word (lit "string") ∧ Word (lit "int") ∧ Word (lit "3") ∧ Word (lit "my_mod") ∧ Word (lit "Point") ∧ Word (lit "game") ∧
      Word (lit "Thread") := by
    unfold Word
    decide
  refine ⟨?_, by decide, by decide, by decide⟩
  intro t ht
  simp only [List.mem_cons, List.not_mem_nil, or_false] at ht
  rcases ht with rfl | rfl | rfl
  · exact ⟨by simp [mapArray, Wf, nm, Flat, isFunc, w], trivial, by decide⟩
  · exact ⟨by simp [underMod, Wf, w], show isUpper (ch 'P') = true by decide, by decide⟩
  · exact ⟨by simp [gameThread, Wf, w], show isUpper (ch 'T') = true by decide, by decide⟩

theorem C145_fails : ¬ C145_statement := by
  intro h
  obtain ⟨h1, h2, -, -⟩ := C145_witness
  have := h (fun _ => false) (fun _ _ => false) (fun _ _ h => by cases h) mapArray (h1 _ (by simp)).1 (h1 _ (by simp)).2.1
  rw [h2] at this
  exact absurd this (by decide)

example : fromName (fun _ => false) (lit "func(&[int,3],map[string:func(int,int)->(int,bool)])->^Point") =
    .func (lit "func(&[int,3],map[string:func(int,int)->(int,bool)])->^Point")
      (some ⟨[(true, lit "[int,3]"), (false, lit "map[string:func(int,int)->(int,bool)]")], [lit "^Point"]⟩) := by decide +kernel

end Verif.Props
