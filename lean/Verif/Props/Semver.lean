import Verif.Model.Semver
import Verif.Props.Strconv

/-! C35-C37: comparison of versions and the choice of an update. -/
namespace Verif.Props
open Verif Verif.Str Verif.Strconv Verif.Semver Verif.Spec

/-! ### C35: a total preorder -/

/-- A three-way comparison that is a total preorder. -/
structure IsCmp {α : Type} (f : α → α → Int) : Prop where
  range : ∀ a b, f a b = -1 ∨ f a b = 0 ∨ f a b = 1
  refl : ∀ a, f a a = 0
  anti : ∀ a b, f b a = -f a b
  trans : ∀ a b c, f a b ≤ 0 → f b c ≤ 0 → f a c ≤ 0

theorem IsCmp.trans_lt {α : Type} {f : α → α → Int} (h : IsCmp f) {a b c : α}
    (h1 : f a b ≤ 0) (h2 : f b c ≤ 0) (h3 : f a b < 0 ∨ f b c < 0) : f a c < 0 := by
  have h4 := h.trans a b c h1 h2
  by_contra hn
  have h0 : f a c = 0 := by omega
  have hca : f c a = 0 := by rw [h.anti a c, h0]; rfl
  have h5 := h.trans b c a h2 (by omega)
  have h6 := h.trans c a b (by omega) h1
  rw [h.anti a b] at h5
  rw [h.anti b c] at h6
  omega

theorem IsCmp.zero_left {α : Type} {f : α → α → Int} (h : IsCmp f) {a b : α} (c : α)
    (h1 : f a b = 0) : f a c = f b c := by
  have hba : f b a = 0 := by rw [h.anti a b, h1]; rfl
  have A : f a c ≤ 0 ↔ f b c ≤ 0 :=
    ⟨fun x => h.trans b a c (by omega) x, fun x => h.trans a b c (by omega) x⟩
  have B : f c a ≤ 0 ↔ f c b ≤ 0 :=
    ⟨fun x => h.trans c a b x (by omega), fun x => h.trans c b a x (by omega)⟩
  rw [h.anti a c, h.anti b c] at B
  rcases h.range a c with x | x | x <;> rcases h.range b c with y | y | y <;> omega

/-- First by `f`, then by `g`. -/
def lex {α : Type} (f g : α → α → Int) (a b : α) : Int := if f a b ≠ 0 then f a b else g a b

theorem IsCmp.lex {α : Type} {f g : α → α → Int} (hf : IsCmp f) (hg : IsCmp g) : IsCmp (lex f g) where
  range a b := by
    unfold Props.lex
    split
    · exact hf.range a b
    · exact hg.range a b
  refl a := by
    unfold Props.lex
    rw [if_neg (by simp [hf.refl a])]; exact hg.refl a
  anti a b := by
    unfold Props.lex
    by_cases h : f a b = 0
    · rw [if_neg (by rw [hf.anti a b, h]; decide), if_neg (not_not_intro h)]; exact hg.anti a b
    · rw [if_pos (by rw [hf.anti a b]; omega), if_pos h]; exact hf.anti a b
  trans a b c := by
    unfold Props.lex
    intro h1 h2
    by_cases hab : f a b = 0
    · rw [if_neg (not_not_intro hab)] at h1
      rw [hf.zero_left c hab]
      by_cases hbc : f b c = 0
      · rw [if_neg (not_not_intro hbc)] at h2 ⊢
        exact hg.trans a b c h1 h2
      · rw [if_pos hbc] at h2 ⊢; exact h2
    · rw [if_pos hab] at h1
      have hbc : f b c ≤ 0 := by
        by_cases hbc : f b c = 0
        · omega
        · rw [if_pos hbc] at h2; exact h2
      have := hf.trans_lt h1 hbc (Or.inl (by omega))
      rw [if_pos (by omega)]; omega

theorem IsCmp.pull {α β : Type} {f : α → α → Int} (hf : IsCmp f) (k : β → α) :
    IsCmp (fun a b => f (k a) (k b)) where
  range a b := hf.range _ _
  refl a := hf.refl _
  anti a b := hf.anti _ _
  trans a b c := hf.trans _ _ _

theorem cmpInt_cmp : IsCmp cmpInt where
  range a b := by unfold cmpInt; split <;> (try split) <;> simp
  refl a := by simp [cmpInt]
  anti a b := by
    unfold cmpInt
    by_cases h : a = b
    · subst h; simp
    · rw [if_pos (fun e => h e.symm), if_pos h]
      split <;> split <;> omega
  trans a b c := by
    unfold cmpInt
    intro h1 h2
    have hab : a ≤ b := by
      by_contra hn
      rw [if_pos (by omega), if_neg (by omega)] at h1; omega
    have hbc : b ≤ c := by
      by_contra hn
      rw [if_pos (by omega), if_neg (by omega)] at h2; omega
    by_cases h : a = c
    · rw [if_neg (not_not_intro h)]
    · rw [if_pos h, if_pos (by omega)]; decide

theorem strLt_irrefl : ∀ a : Str, strLt a a = false
  | [] => rfl
  | a :: as => by rw [strLt, if_neg (lt_irrefl _), if_neg (lt_irrefl _), strLt_irrefl as]

theorem strLt_total : ∀ a b : Str, a ≠ b → strLt b a = !strLt a b
  | [], [], h => absurd rfl h
  | [], _ :: _, _ => rfl
  | _ :: _, [], _ => rfl
  | a :: as, b :: bs, h => by
    rw [strLt, strLt]
    by_cases h1 : a.toNat < b.toNat
    · rw [if_pos h1, if_neg (by omega), if_pos h1]; rfl
    · rw [if_neg h1]
      by_cases h2 : b.toNat < a.toNat
      · rw [if_pos h2, if_neg h1, if_pos h2]; rfl
      · rw [if_neg h2, if_neg h1, if_neg h2]
        have : a = b := BitVec.eq_of_toNat_eq (by omega)
        exact strLt_total as bs (fun e => h (by rw [this, e]))

theorem strLt_trans : ∀ a b c : Str, strLt a b = true → strLt b c = true → strLt a c = true
  | _, [], _, h, _ => by simp [strLt] at h
  | _, _ :: _, [], _, h => by simp [strLt] at h
  | [], _ :: _, _ :: _, _, _ => rfl
  | a :: as, b :: bs, c :: cs, h1, h2 => by
    rw [strLt] at h1 h2 ⊢
    by_cases hab : a.toNat < b.toNat
    · by_cases hbc : b.toNat < c.toNat
      · rw [if_pos (by omega)]
      · rw [if_neg hbc] at h2
        by_cases hcb : c.toNat < b.toNat
        · rw [if_pos hcb] at h2; cases h2
        · rw [if_pos (by omega)]
    · rw [if_neg hab] at h1
      by_cases hba : b.toNat < a.toNat
      · rw [if_pos hba] at h1; cases h1
      · rw [if_neg hba] at h1
        by_cases hbc : b.toNat < c.toNat
        · rw [if_pos (by omega)]
        · rw [if_neg hbc] at h2
          by_cases hcb : c.toNat < b.toNat
          · rw [if_pos hcb] at h2; cases h2
          · rw [if_neg hcb] at h2
            rw [if_neg (by omega), if_neg (by omega)]
            exact strLt_trans as bs cs h1 h2

theorem cmpIdent_cmp : IsCmp cmpIdent where
  range a b := by
    unfold cmpIdent
    split <;> (try split) <;> (try split) <;> simp
  refl a := by
    unfold cmpIdent
    cases numIdent a <;> simp
  anti a b := by
    unfold cmpIdent
    cases numIdent a with
    | none =>
      cases numIdent b with
      | none =>
        simp only
        by_cases h : a = b
        · subst h; simp
        · rw [if_pos (fun e => h e.symm), if_pos h, strLt_total a b h]
          cases strLt a b <;> simp
      | some y => simp
    | some x =>
      cases numIdent b with
      | none => simp
      | some y => exact cmpInt_cmp.anti x y
  trans a b c := by
    unfold cmpIdent
    cases numIdent a with
    | none =>
      cases numIdent b with
      | none =>
        cases numIdent c with
        | none =>
          simp only
          intro h1 h2
          by_cases hab : a = b
          · subst hab; exact h2
          · rw [if_pos hab] at h1
            by_cases hbc : b = c
            · subst hbc; rw [if_pos hab]; exact h1
            · rw [if_pos hbc] at h2
              have l1 : strLt a b = true := by
                by_contra hn; rw [if_neg hn] at h1; omega
              have l2 : strLt b c = true := by
                by_contra hn; rw [if_neg hn] at h2; omega
              have l3 := strLt_trans a b c l1 l2
              rw [if_pos l3]
              split <;> decide
        | some z => simp
      | some y => simp
    | some x =>
      cases numIdent b with
      | none =>
        cases numIdent c with
        | none => simp
        | some z => simp
      | some y =>
        cases numIdent c with
        | none => simp
        | some z => exact cmpInt_cmp.trans x y z

theorem cmpIdents_range : ∀ a b, cmpIdents a b = -1 ∨ cmpIdents a b = 0 ∨ cmpIdents a b = 1
  | [], [] => by simp [cmpIdents]
  | [], _ :: _ => by simp [cmpIdents]
  | _ :: _, [] => by simp [cmpIdents]
  | a :: as, b :: bs => by
    rw [cmpIdents]
    split
    · exact cmpIdent_cmp.range a b
    · exact cmpIdents_range as bs

theorem cmpIdents_cmp : IsCmp cmpIdents where
  range := cmpIdents_range
  refl a := by
    induction a with
    | nil => rfl
    | cons x r ih => rw [cmpIdents, if_neg (by simp [cmpIdent_cmp.refl x]), ih]
  anti a b := by
    induction a generalizing b with
    | nil => cases b <;> rfl
    | cons x r ih =>
      cases b with
      | nil => rfl
      | cons y s =>
        rw [cmpIdents, cmpIdents, cmpIdent_cmp.anti x y]
        by_cases h : cmpIdent x y = 0
        · rw [if_neg (by omega), if_neg (by omega), ih]
        · rw [if_pos (by omega), if_pos h]
  trans a b c := by
    induction a generalizing b c with
    | nil =>
      intro _ _
      cases c with
      | nil => simp [cmpIdents]
      | cons z t => simp [cmpIdents]
    | cons x r ih =>
      intro h1 h2
      cases b with
      | nil => simp [cmpIdents] at h1
      | cons y s =>
        cases c with
        | nil => simp [cmpIdents] at h2
        | cons z t =>
          rw [cmpIdents] at h1 h2 ⊢
          by_cases hab : cmpIdent x y = 0
          · rw [if_neg (not_not_intro hab)] at h1
            rw [cmpIdent_cmp.zero_left z hab]
            by_cases hbc : cmpIdent y z = 0
            · rw [if_neg (not_not_intro hbc)] at h2 ⊢
              exact ih s t h1 h2
            · rw [if_pos hbc] at h2 ⊢; exact h2
          · rw [if_pos hab] at h1
            have hbc : cmpIdent y z ≤ 0 := by
              by_cases hbc : cmpIdent y z = 0
              · omega
              · rw [if_pos hbc] at h2; exact h2
            have := cmpIdent_cmp.trans_lt h1 hbc (Or.inl (by omega))
            rw [if_pos (by omega)]; omega

/-- The last step of the comparison: no pre-release is greatest. -/
def cmpPre (a b : Str) : Int :=
  if a = [] ∧ b = [] then 0 else if a = [] then 1 else if b = [] then -1 else comparePre a b

theorem cmpPre_cmp : IsCmp cmpPre where
  range a b := by
    unfold cmpPre
    split
    · simp
    · split
      · simp
      · split
        · simp
        · exact cmpIdents_cmp.range _ _
  refl a := by
    unfold cmpPre
    by_cases h : a = []
    · rw [if_pos ⟨h, h⟩]
    · rw [if_neg (fun x => h x.1), if_neg h, if_neg h]; exact cmpIdents_cmp.refl _
  anti a b := by
    unfold cmpPre
    by_cases ha : a = [] <;> by_cases hb : b = []
    · simp [ha, hb]
    · simp [ha, hb]
    · simp [ha, hb]
    · simp only [ha, hb, and_self, if_false]; exact cmpIdents_cmp.anti _ _
  trans a b c := by
    unfold cmpPre
    by_cases ha : a = [] <;> by_cases hb : b = [] <;> by_cases hc : c = [] <;>
      simp only [ha, hb, hc, and_self, and_true, and_false, true_and, false_and, if_true, if_false] <;>
      try omega
    exact cmpIdents_cmp.trans _ _ _

theorem compareParsed_eq (a b : Parsed) : compareParsed a b =
    lex (fun a b : Parsed => cmpInt a.major b.major)
      (lex (fun a b : Parsed => cmpInt a.minor b.minor)
        (lex (fun a b : Parsed => cmpInt a.patch b.patch) (fun a b : Parsed => cmpPre a.pre b.pre))) a b :=
  rfl

theorem compareSemver_cmp : IsCmp compareSemver := by
  have h : IsCmp compareParsed := by
    have : compareParsed = _ := funext fun a => funext fun b => compareParsed_eq a b
    rw [this]
    exact (cmpInt_cmp.pull _).lex ((cmpInt_cmp.pull _).lex ((cmpInt_cmp.pull _).lex (cmpPre_cmp.pull _)))
  exact h.pull parseSemver

/-- C35: compareSemver is a total preorder on all strings: reflexive, antisymmetric in sign, transitive. -/
theorem C35_preorder (a b c : Str) : compareSemver a a = 0 ∧ compareSemver b a = -compareSemver a b ∧
    (compareSemver a b ≤ 0 → compareSemver b c ≤ 0 → compareSemver a c ≤ 0) ∧
    (compareSemver a b = -1 ∨ compareSemver a b = 0 ∨ compareSemver a b = 1) :=
  ⟨compareSemver_cmp.refl a, compareSemver_cmp.anti a b, compareSemver_cmp.trans a b c,
    compareSemver_cmp.range a b⟩

/-- Strictness is kept by transitivity. -/
theorem C35_strict (a b c : Str) (h1 : compareSemver a b ≤ 0) (h2 : compareSemver b c ≤ 0)
    (h3 : compareSemver a b < 0 ∨ compareSemver b c < 0) : compareSemver a c < 0 :=
  compareSemver_cmp.trans_lt h1 h2 h3

example : compareSemver (lit "v1.2.10") (lit "1.2.9") = 1 ∧
    compareSemver (lit "1.0.0-beta.2") (lit "1.0.0-beta.11") = -1 ∧
    compareSemver (lit "1.0.0-rc.1") (lit "1.0.0") = -1 := by decide +kernel

/-! ### C36: SemVer precedence -/

/-- A pre-release identifier. -/
inductive Ident where
  | num (n : Nat)
  | alnum (s : Str)

/-- A version of SemVer 2.0. -/
structure Version where
  major : Nat
  minor : Nat
  patch : Nat
  pre : List Ident
  build : Option Str

def natText (n : Nat) : Str := lit (toString n)

def Ident.text : Ident → Str
  | .num n => natText n
  | .alnum s => s

def dots : List Str → Str
  | [] => []
  | [s] => s
  | s :: t :: r => s ++ ch '.' :: dots (t :: r)

def Version.preText (v : Version) : Str := dots (v.pre.map Ident.text)

def Version.text (v : Version) : Str :=
  natText v.major ++ ch '.' :: (natText v.minor ++ ch '.' :: (natText v.patch ++
    ((if v.pre = [] then [] else ch '-' :: v.preText) ++
     (match v.build with | none => [] | some b => ch '+' :: b))))

/-- An alphanumeric identifier: letters, digits and hyphens, not only digits. -/
def IsAlnum (s : Str) : Prop :=
  (∀ c ∈ s, isDigit c = true ∨ isUpper c = true ∨ isLower c = true ∨ c = ch '-') ∧
  ∃ c ∈ s, isDigit c = false

def Version.WellFormed (v : Version) : Prop := ∀ s, Ident.alnum s ∈ v.pre → IsAlnum s

/-- Precedence of identifiers (SemVer 11.4.1-11.4.3). -/
def Ident.Lt : Ident → Ident → Prop
  | .num a, .num b => a < b
  | .num _, .alnum _ => True
  | .alnum _, .num _ => False
  | .alnum a, .alnum b => List.Lex (fun x y : Byte => x.toNat < y.toNat) a b

/-- Precedence of versions (SemVer 11.2-11.4). -/
def Version.Lt (v w : Version) : Prop :=
  v.major < w.major ∨ (v.major = w.major ∧
    (v.minor < w.minor ∨ (v.minor = w.minor ∧
      (v.patch < w.patch ∨ (v.patch = w.patch ∧
        v.pre ≠ [] ∧ (w.pre = [] ∨ List.Lex Ident.Lt v.pre w.pre))))))

/-- C36 as claimed. -/
def C36_statement : Prop :=
  ∀ v w : Version, v.WellFormed → w.WellFormed →
    (compareSemver v.text w.text = -1 ↔ v.Lt w) ∧
    (isNewer v.text w.text = true ↔ v.Lt w)

/-- 1.0.0-3 comes before 1.0.0--5, whose identifier is not numeric; 10000000000000000000.0.0 is greater
than 1.0.0; 1.0.0-a-1-g0 is less than 1.0.0-a-2-g0. -/
theorem C36_witness :
    compareSemver (Version.text ⟨1, 0, 0, [.num 3], none⟩) (Version.text ⟨1, 0, 0, [.alnum (lit "-5")], none⟩) = 1 ∧
    compareSemver (lit "10000000000000000000.0.0") (lit "1.0.0") = -1 ∧
    compareSemver (lit "1.0.0-a-1-g0") (lit "1.0.0-a-2-g0") = 0 := by decide +kernel

theorem C36_fails : ¬ C36_statement := by
  intro h
  have := (h ⟨1, 0, 0, [.num 3], none⟩ ⟨1, 0, 0, [.alnum (lit "-5")], none⟩
    (by intro s hs; simp at hs) (by
      intro s hs
      simp at hs
      subst hs
      exact ⟨by decide, by decide⟩)).1.2 (by
        refine Or.inr ⟨rfl, Or.inr ⟨rfl, Or.inr ⟨rfl, by simp, Or.inr (List.Lex.rel trivial)⟩⟩⟩)
  rw [C36_witness.1] at this
  cases this

/-- Versions without the shapes that are misread. -/
structure Version.Plain (v : Version) : Prop where
  wf : v.WellFormed
  small : v.major < 2 ^ 63 ∧ v.minor < 2 ^ 63 ∧ v.patch < 2 ^ 63
  nums : ∀ n, Ident.num n ∈ v.pre → n < 2 ^ 63
  noMinus : ∀ d : Str, Ident.alnum (ch '-' :: d) ∈ v.pre → ∃ c ∈ d, isDigit c = false
  noDescribe : ∀ a d h : Str, (∀ c ∈ d, isDigit c = true) → v.preText ≠ a ++ ch '-' :: (d ++ lit "-g" ++ h)

theorem natText_eq (n : Nat) : natText n = fromUint n := by
  have hd : ∀ k : Fin 10, ch (Nat.digitChar k) = BitVec.ofNat 8 (48 + k) := by decide
  have key : ∀ n : Nat, (Nat.toDigits 10 n).map ch = (Bigint.decimalNat n).map (BitVec.ofNat 8) := by
    intro n
    induction n using Nat.strongRecOn with
    | _ n ih =>
      rw [Nat.toDigits_eq_if (by decide), Bigint.decimalNat]
      by_cases h : n < 10
      · rw [if_pos h, if_pos h]
        have := hd ⟨n, h⟩
        simpa using this
      · rw [if_neg h, if_neg h, List.map_append, List.map_append, ih (n / 10) (by omega)]
        have := hd ⟨n % 10, by omega⟩
        simpa using this
  have hs : (toString n).toList = Nat.toDigits 10 n := by simp [toString]
  rw [natText, lit, hs]; exact key n

theorem natText_digits (n : Nat) : natText n ≠ [] ∧ ∀ c ∈ natText n, isDigit c = true := by
  rw [natText_eq]
  have h := (numVal_iff (base := 10) (by decide) _ _).1 (fromUint_num n)
  refine ⟨h.1, fun c hc => ?_⟩
  have hf : ∀ n : Fin 256, digitVal (BitVec.ofFin n) < 10 → isDigit (BitVec.ofFin n) = true := by
    decide +kernel
  exact hf c.toFin (h.2.1 c hc)

theorem digit_plain {c : Byte} (h : isDigit c = true) : c ≠ ch '.' ∧ c ≠ ch '-' ∧ c ≠ ch '+' ∧
    c ≠ ch 'v' ∧ c ≠ 10 ∧ c ≠ 32 ∧ c ≠ 9 ∧ c ≠ 11 ∧ c ≠ 12 ∧ c ≠ 13 := by
  refine ⟨?_, ?_, ?_, ?_, ?_, ?_, ?_, ?_, ?_, ?_⟩ <;> rintro rfl <;> exact absurd h (by decide)

theorem scanInt_digits {s : Str} (h1 : s ≠ []) (h2 : ∀ c ∈ s, isDigit c = true) :
    scanInt s = if (digitsLoop 10 s 0).1 < 2 ^ 63 then some ((digitsLoop 10 s 0).1 : Int) else none := by
  cases s with
  | nil => exact absurd rfl h1
  | cons c r =>
    have hc := h2 c (by simp)
    obtain ⟨-, p2, p3, -, p5, p6, p7, p8, p9, p10⟩ := digit_plain hc
    have hsp : scanSpace (c :: r) = some (c :: r) := by
      rw [scanSpace, if_neg p5, if_neg (by rintro (h | h | h | h | h) <;> contradiction)]
    have hsg : sign (c :: r) = (false, c :: r) := by rw [sign, if_neg p2, if_neg p3]
    rw [scanInt, hsp]
    simp only [hsg, hc, if_true, Bool.false_eq_true, if_false]
    by_cases h : (digitsLoop 10 (c :: r) 0).1 < 2 ^ 63
    · rw [if_pos h, if_pos (by omega)]
    · rw [if_neg h, if_neg (by omega)]

theorem scanInt_nat {n : Nat} (h : n < 2 ^ 63) : scanInt (natText n) = some (n : Int) := by
  have hd := natText_digits n
  rw [scanInt_digits hd.1 hd.2]
  have hv : (digitsLoop 10 (natText n) 0).1 = n := by
    have hr := readMag_num (base := 10) (by decide) false (fromUint_num n)
    rw [← natText_eq] at hr
    cases hn : natText n with
    | nil => exact absurd hn hd.1
    | cons c r =>
      rw [hn, readMag] at hr
      split at hr
      · injection hr with hr; injection hr with _ hr; injection hr
      · cases hr
  rw [hv, if_pos h]

theorem before_append {c : Byte} {a : Str} (h : c ∉ a) (b : Str) : before c (a ++ c :: b) = a := by
  induction a with
  | nil => rw [List.nil_append, before, if_pos rfl]
  | cons x r ih =>
    rw [List.mem_cons, not_or] at h
    rw [List.cons_append, before, if_neg (fun e => h.1 e.symm), ih h.2]

theorem before_none {c : Byte} {a : Str} (h : c ∉ a) : before c a = a := by
  induction a with
  | nil => rfl
  | cons x r ih =>
    rw [List.mem_cons, not_or] at h
    rw [before, if_neg (fun e => h.1 e.symm), ih h.2]

theorem after_append {c : Byte} {a : Str} (h : c ∉ a) (b : Str) : after c (a ++ c :: b) = some b := by
  induction a with
  | nil => rw [List.nil_append, after, if_pos rfl]
  | cons x r ih =>
    rw [List.mem_cons, not_or] at h
    rw [List.cons_append, after, if_neg (fun e => h.1 e.symm), ih h.2]

theorem after_none {c : Byte} {a : Str} (h : c ∉ a) : after c a = none := by
  induction a with
  | nil => rfl
  | cons x r ih =>
    rw [List.mem_cons, not_or] at h
    rw [after, if_neg (fun e => h.1 e.symm), ih h.2]

theorem splitOn_none {c : Byte} {a : Str} (h : c ∉ a) : splitOn c a = [a] := by
  induction a with
  | nil => rfl
  | cons x r ih =>
    rw [List.mem_cons, not_or] at h
    rw [splitOn, if_neg (fun e => h.1 e.symm), ih h.2]

theorem splitOn_append {c : Byte} {a : Str} (h : c ∉ a) (b : Str) :
    splitOn c (a ++ c :: b) = a :: splitOn c b := by
  induction a with
  | nil => rw [List.nil_append, splitOn, if_pos rfl]
  | cons x r ih =>
    rw [List.mem_cons, not_or] at h
    rw [List.cons_append, splitOn, if_neg (fun e => h.1 e.symm), ih h.2]

theorem splitOn_dots {ps : List Str} (hn : ps ≠ []) (h : ∀ p ∈ ps, ch '.' ∉ p) :
    splitOn (ch '.') (dots ps) = ps := by
  induction ps with
  | nil => exact absurd rfl hn
  | cons p r ih =>
    cases r with
    | nil => rw [dots]; exact splitOn_none (h p (by simp))
    | cons q r =>
      rw [dots, splitOn_append (h p (by simp)), ih (by simp) (fun x hx => h x (List.mem_cons_of_mem _ hx))]

theorem mem_dots {ps : List Str} {c : Byte} (h : c ∈ dots ps) : c = ch '.' ∨ ∃ p ∈ ps, c ∈ p := by
  induction ps with
  | nil => cases h
  | cons p r ih =>
    cases r with
    | nil => exact Or.inr ⟨p, by simp, h⟩
    | cons q r =>
      rw [dots, List.mem_append, List.mem_cons] at h
      rcases h with h | h | h
      · exact Or.inr ⟨p, by simp, h⟩
      · exact Or.inl h
      · rcases ih h with h | ⟨x, hx, hc⟩
        · exact Or.inl h
        · exact Or.inr ⟨x, List.mem_cons_of_mem _ hx, hc⟩

theorem ident_chars {v : Version} (hw : v.WellFormed) {i : Ident} (hi : i ∈ v.pre) {c : Byte}
    (hc : c ∈ i.text) : c ≠ ch '.' ∧ c ≠ ch '+' := by
  cases i with
  | num n =>
    have := digit_plain ((natText_digits n).2 c hc)
    exact ⟨this.1, this.2.2.1⟩
  | alnum s =>
    have h := (hw s hi).1 c hc
    constructor <;> rintro rfl <;> rcases h with h | h | h | h <;> revert h <;> decide

theorem skip_suffix (p : Byte → Bool) (s : Str) : ∃ d, s = d ++ skip p s ∧ ∀ c ∈ d, p c = true := by
  induction s with
  | nil => exact ⟨[], rfl, by simp⟩
  | cons c r ih =>
    rw [skip]
    by_cases h : p c = true
    · rw [if_pos h]
      obtain ⟨d, h1, h2⟩ := ih
      exact ⟨c :: d, by rw [List.cons_append, ← h1], by simpa [h] using h2⟩
    · rw [if_neg h]; exact ⟨[], rfl, by simp⟩

theorem matchCount_shape {s : Str} (h : matchCount s = true) :
    ∃ d t, s = d ++ lit "-g" ++ t ∧ ∀ c ∈ d, isDigit c = true := by
  cases s with
  | nil => cases h
  | cons c r =>
    rw [matchCount, Bool.and_eq_true] at h
    obtain ⟨h1, h2⟩ := h
    obtain ⟨d, h3, h4⟩ := skip_suffix isDigit r
    split at h2
    · rename_i x g t hsk
      simp only [Bool.and_eq_true, beq_iff_eq] at h2
      refine ⟨c :: d, t, ?_, by simpa [h1] using h4⟩
      rw [h3, hsk, h2.1.1, h2.1.2]
      simp [lit]
    · cases h2

theorem stripDescribe_eq {s : Str}
    (h : ∀ a d t : Str, (∀ c ∈ d, isDigit c = true) → s ≠ a ++ ch '-' :: (d ++ lit "-g" ++ t)) :
    stripDescribe s = s := by
  induction s with
  | nil => rfl
  | cons c r ih =>
    rw [stripDescribe, if_neg, ih]
    · intro a d t hd e
      exact h (c :: a) d t hd (by rw [e]; rfl)
    · intro hm
      rw [Bool.and_eq_true, beq_iff_eq] at hm
      obtain ⟨d, t, h1, h2⟩ := matchCount_shape hm.2
      exact h [] d t h2 (by rw [hm.1, h1]; rfl)

theorem parse_text {v : Version} (h : v.Plain) (pv : Bool) :
    parseSemver (if pv then ch 'v' :: v.text else v.text) =
      ⟨v.major, v.minor, v.patch, if v.pre = [] then [] else v.preText⟩ := by
  have hM := natText_digits v.major
  have hm := natText_digits v.minor
  have hp := natText_digits v.patch
  have htrim : trimV (if pv then ch 'v' :: v.text else v.text) = v.text := by
    cases pv with
    | true => rfl
    | false =>
      simp only [Bool.false_eq_true, if_false]
      unfold Version.text
      cases hn : natText v.major with
      | nil => exact absurd hn hM.1
      | cons c r =>
        rw [List.cons_append, trimV, if_neg]
        exact (digit_plain (hM.2 c (by rw [hn]; simp))).2.2.2.1
  obtain ⟨base, hbase⟩ : ∃ b, b = natText v.major ++ ch '.' :: (natText v.minor ++ ch '.' :: natText v.patch) := ⟨_, rfl⟩
  have hbc : ∀ c ∈ base, c ≠ ch '-' ∧ c ≠ ch '+' := by
    intro c hc
    rw [hbase] at hc
    simp only [List.mem_append, List.mem_cons] at hc
    have hdot : ch '.' ≠ ch '-' ∧ ch '.' ≠ ch '+' := by decide
    rcases hc with hc | rfl | hc | rfl | hc
    · have := digit_plain (hM.2 c hc); exact ⟨this.2.1, this.2.2.1⟩
    · exact hdot
    · have := digit_plain (hm.2 c hc); exact ⟨this.2.1, this.2.2.1⟩
    · exact hdot
    · have := digit_plain (hp.2 c hc); exact ⟨this.2.1, this.2.2.1⟩
  have hpre : ∀ c ∈ v.preText, c ≠ ch '+' := by
    intro c hc
    rcases mem_dots hc with rfl | ⟨p, hp, hc⟩
    · decide
    · rw [List.mem_map] at hp
      obtain ⟨i, hi, rfl⟩ := hp
      exact (ident_chars h.wf hi hc).2
  obtain ⟨mid, hmid⟩ : ∃ m, m = base ++ (if v.pre = [] then [] else ch '-' :: v.preText) := ⟨_, rfl⟩
  have htext : v.text = mid ++ (match v.build with | none => [] | some b => ch '+' :: b) := by
    rw [hmid, hbase, Version.text]
    simp only [List.append_assoc, List.cons_append]
  have hplus : ch '+' ∉ mid := by
    rw [hmid, List.mem_append, not_or]
    refine ⟨fun hc => (hbc _ hc).2 rfl, ?_⟩
    split
    · simp
    · rw [List.mem_cons, not_or]
      exact ⟨by decide, fun hc => hpre _ hc rfl⟩
  have hb1 : before (ch '+') v.text = mid := by
    rw [htext]
    cases v.build with
    | none => simp only [List.append_nil]; exact before_none hplus
    | some b => exact before_append hplus b
  have hminus : ch '-' ∉ base := fun hc => (hbc _ hc).1 rfl
  have hparts : splitOn (ch '.') base = [natText v.major, natText v.minor, natText v.patch] := by
    rw [hbase, splitOn_append (fun hc => (digit_plain (hM.2 _ hc)).1 rfl),
      splitOn_append (fun hc => (digit_plain (hm.2 _ hc)).1 rfl),
      splitOn_none (fun hc => (digit_plain (hp.2 _ hc)).1 rfl)]
  have hb2 : before (ch '-') mid = base := by
    rw [hmid]
    split
    · rw [List.append_nil]; exact before_none hminus
    · exact before_append hminus _
  have hb3 : after (ch '-') mid = if v.pre = [] then none else some v.preText := by
    rw [hmid]
    split
    · rw [List.append_nil]; exact after_none hminus
    · exact after_append hminus _
  unfold parseSemver
  rw [htrim]
  simp only [hb1, hb2, hb3, hparts, part, List.getElem?_cons_zero, List.getElem?_cons_succ]
  rw [scanInt_nat h.small.1, scanInt_nat h.small.2.1, scanInt_nat h.small.2.2]
  simp only [Option.getD_some]
  congr 1
  by_cases hv : v.pre = []
  · rw [if_pos hv, if_pos hv]
  · rw [if_neg hv, if_neg hv]
    exact stripDescribe_eq h.noDescribe

theorem strLt_lex : ∀ a b : Str, strLt a b = true ↔
    List.Lex (fun x y : Byte => x.toNat < y.toNat) a b
  | a, [] => by
    constructor
    · intro h; cases a <;> cases h
    · intro h; cases h
  | [], b :: bs => by
    constructor
    · intro _; exact List.Lex.nil
    · intro _; rfl
  | a :: as, b :: bs => by
    rw [strLt]
    by_cases h1 : a.toNat < b.toNat
    · rw [if_pos h1]
      exact ⟨fun _ => List.Lex.rel h1, fun _ => rfl⟩
    · rw [if_neg h1]
      by_cases h2 : b.toNat < a.toNat
      · rw [if_pos h2]
        constructor
        · intro h; cases h
        · intro h
          cases h with
          | rel h => omega
          | cons h => omega
      · rw [if_neg h2, strLt_lex as bs]
        have : a = b := BitVec.eq_of_toNat_eq (by omega)
        subst this
        constructor
        · exact fun h => List.Lex.cons h
        · intro h
          cases h with
          | rel h => omega
          | cons h => exact h

theorem numIdent_num {n : Nat} (h : n < 2 ^ 63) : numIdent (natText n) = some (n : Int) := by
  rw [numIdent, scanInt_nat h]
  simp only
  rw [if_pos]
  rw [sprint, fromInt, if_neg (by omega), natText_eq]; simp

theorem numIdent_alnum {s : Str} (h : IsAlnum s)
    (h2 : ∀ d, s = ch '-' :: d → ∃ c ∈ d, isDigit c = false) : numIdent s = none := by
  rw [numIdent]
  cases hs : scanInt s with
  | none => rfl
  | some n =>
    simp only
    rw [if_neg]
    intro e
    rw [sprint, fromInt] at e
    by_cases hn : n < 0
    · rw [if_pos hn] at e
      obtain ⟨c, hc, hd⟩ := h2 _ e.symm
      have := natText_digits n.natAbs
      rw [natText_eq] at this
      rw [this.2 c hc] at hd
      cases hd
    · rw [if_neg hn] at e
      obtain ⟨c, hc, hd⟩ := h.2
      have := natText_digits n.natAbs
      rw [natText_eq, e] at this
      rw [this.2 c hc] at hd
      cases hd

/-- What is needed of an identifier. -/
def IdentOk : Ident → Prop
  | .num n => n < 2 ^ 63
  | .alnum s => IsAlnum s ∧ ∀ d, s = ch '-' :: d → ∃ c ∈ d, isDigit c = false

theorem cmpIdent_spec {i j : Ident} (hi : IdentOk i) (hj : IdentOk j) :
    (cmpIdent i.text j.text < 0 ↔ i.Lt j) ∧ (cmpIdent i.text j.text = 0 ↔ i = j) := by
  unfold cmpIdent
  cases i with
  | num a =>
    simp only [Ident.text, numIdent_num hi]
    cases j with
    | num b =>
      simp only [numIdent_num hj, Ident.Lt, Ident.num.injEq]
      by_cases h : (a : Int) = b
      · rw [if_neg (not_not_intro h)]
        have : a = b := by omega
        subst this; simp
      · rw [if_pos h]
        by_cases h2 : (a : Int) < b
        · rw [if_pos h2]; constructor <;> constructor <;> intro _ <;> omega
        · rw [if_neg h2]; constructor <;> constructor <;> intro _ <;> omega
    | alnum t =>
      simp [numIdent_alnum hj.1 hj.2, Ident.Lt]
  | alnum s =>
    simp only [Ident.text, numIdent_alnum hi.1 hi.2]
    cases j with
    | num b => simp [numIdent_num hj, Ident.Lt]
    | alnum t =>
      simp only [numIdent_alnum hj.1 hj.2, Ident.Lt, Ident.alnum.injEq]
      rw [← strLt_lex]
      show ((if s ≠ t then (if strLt s t = true then (-1 : Int) else 1) else 0) < 0 ↔ strLt s t = true) ∧
        ((if s ≠ t then (if strLt s t = true then (-1 : Int) else 1) else 0) = 0 ↔ s = t)
      by_cases h : s = t
      · subst h; simp [strLt_irrefl]
      · cases strLt s t <;> simp [h]

theorem cmpIdents_spec : ∀ (p q : List Ident), (∀ i ∈ p, IdentOk i) → (∀ i ∈ q, IdentOk i) →
    (cmpIdents (p.map Ident.text) (q.map Ident.text) < 0 ↔ List.Lex Ident.Lt p q)
  | [], [], _, _ => by
    constructor
    · intro h; exact absurd h (by decide)
    · intro h; cases h
  | [], _ :: _, _, _ => by
    constructor
    · intro _; exact List.Lex.nil
    · intro _; show (-1 : Int) < 0; decide
  | _ :: _, [], _, _ => by
    constructor
    · intro h; exact absurd h (by show ¬ (1 : Int) < 0; decide)
    · intro h; cases h
  | i :: p, j :: q, hp, hq => by
    rw [List.map_cons, List.map_cons, cmpIdents]
    obtain ⟨h1, h2⟩ := cmpIdent_spec (hp i (by simp)) (hq j (by simp))
    have ih := cmpIdents_spec p q (fun x hx => hp x (List.mem_cons_of_mem _ hx))
      (fun x hx => hq x (List.mem_cons_of_mem _ hx))
    by_cases h : cmpIdent i.text j.text = 0
    · rw [if_neg (not_not_intro h), ih]
      have e := h2.1 h
      subst e
      constructor
      · exact fun h => List.Lex.cons h
      · intro hl
        cases hl with
        | rel hr => have := h1.2 hr; omega
        | cons hc => exact hc
    · rw [if_pos h, h1]
      constructor
      · exact fun h => List.Lex.rel h
      · intro hl
        cases hl with
        | rel hr => exact hr
        | cons hc => exact absurd (h2.2 rfl) h

theorem Version.Plain.idents {v : Version} (h : v.Plain) : ∀ i ∈ v.pre, IdentOk i := by
  intro i hi
  cases i with
  | num n => exact h.nums n hi
  | alnum s => exact ⟨h.wf s hi, fun d e => h.noMinus d (by rw [← e]; exact hi)⟩

theorem comparePre_spec {v w : Version} (hv : v.Plain) (hw : w.Plain) (h1 : v.pre ≠ []) (h2 : w.pre ≠ []) :
    comparePre v.preText w.preText < 0 ↔ List.Lex Ident.Lt v.pre w.pre := by
  have hsp : ∀ {u : Version}, u.Plain → u.pre ≠ [] → splitOn (ch '.') u.preText = u.pre.map Ident.text := by
    intro u hu hn
    refine splitOn_dots (by simpa using hn) ?_
    intro p hp hc
    rw [List.mem_map] at hp
    obtain ⟨i, hi, rfl⟩ := hp
    exact (ident_chars hu.wf hi hc).1 rfl
  rw [comparePre, hsp hv h1, hsp hw h2]
  exact cmpIdents_spec _ _ hv.idents hw.idents

theorem preText_ne {v : Version} (hv : v.Plain) (h : v.pre ≠ []) : v.preText ≠ [] := by
  intro e
  have hd : ∀ ps : List Str, ps ≠ [] → (∀ p ∈ ps, p ≠ []) → dots ps ≠ [] := by
    intro ps h1 h2
    cases ps with
    | nil => exact absurd rfl h1
    | cons p r =>
      cases r with
      | nil => rw [dots]; exact h2 p (by simp)
      | cons q r => rw [dots]; simp
  refine hd _ (by simpa using h) ?_ e
  intro p hp
  rw [List.mem_map] at hp
  obtain ⟨i, hi, rfl⟩ := hp
  cases i with
  | num n => exact (natText_digits n).1
  | alnum s =>
    obtain ⟨c, hc, -⟩ := (hv.wf s hi).2
    intro e
    rw [Ident.text] at e
    rw [e] at hc
    cases hc

/-- On plain versions, with or without a leading v, the comparison is SemVer precedence. Missing for
the full claim: numbers from 2^63, identifiers made of a hyphen and digits, and pre-release labels
that look like the trailer of git describe. -/
theorem C36_partial (v w : Version) (hv : v.Plain) (hw : w.Plain) (a b : Bool) :
    let s := if a then ch 'v' :: v.text else v.text
    let t := if b then ch 'v' :: w.text else w.text
    (compareSemver s t = -1 ↔ v.Lt w) ∧ (compareSemver s t = 1 ↔ w.Lt v) ∧
    (isNewer s t = true ↔ v.Lt w) := by
  intro s t
  have key : ∀ (v w : Version), v.Plain → w.Plain → ∀ a b : Bool,
      compareSemver (if a then ch 'v' :: v.text else v.text) (if b then ch 'v' :: w.text else w.text) < 0
        ↔ v.Lt w := by
    intro v w hv hw a b
    rw [compareSemver, parse_text hv a, parse_text hw b, compareParsed]
    simp only
    unfold Version.Lt
    have hc : ∀ x y : Nat, (cmpInt x y < 0 ↔ x < y) ∧ (cmpInt x y = 0 ↔ x = y) := by
      intro x y
      unfold cmpInt
      by_cases h : (x : Int) = y
      · rw [if_neg (not_not_intro h)]; constructor <;> constructor <;> intro _ <;> omega
      · rw [if_pos h]
        by_cases h2 : (x : Int) < y
        · rw [if_pos h2]; constructor <;> constructor <;> intro _ <;> omega
        · rw [if_neg h2]; constructor <;> constructor <;> intro _ <;> omega
    by_cases h1 : cmpInt v.major w.major = 0
    · rw [if_neg (not_not_intro h1)]
      have e1 := (hc _ _).2.1 h1
      by_cases h2 : cmpInt v.minor w.minor = 0
      · rw [if_neg (not_not_intro h2)]
        have e2 := (hc _ _).2.1 h2
        by_cases h3 : cmpInt v.patch w.patch = 0
        · rw [if_neg (not_not_intro h3)]
          have e3 := (hc _ _).2.1 h3
          simp only [e1, e2, e3, lt_irrefl, true_and, false_or]
          by_cases p1 : v.pre = []
          · by_cases p2 : w.pre = []
            · simp [p1, p2]
            · simp [p1, p2, preText_ne hw p2]
          · have q1 := preText_ne hv p1
            by_cases p2 : w.pre = []
            · simp [p1, p2, q1]
            · have q2 := preText_ne hw p2
              simp only [p1, p2, q1, q2, if_false, and_self, ne_eq, not_false_eq_true, true_and, false_or]
              exact comparePre_spec hv hw p1 p2
        · rw [if_pos h3, (hc _ _).1]
          have := (hc v.patch w.patch).2
          simp only [e1, e2, lt_irrefl, true_and, false_or]
          constructor
          · exact Or.inl
          · rintro (h | h)
            · exact h
            · exact absurd (this.2 h.1) h3
      · rw [if_pos h2, (hc _ _).1]
        have := (hc v.minor w.minor).2
        simp only [e1, lt_irrefl, true_and, false_or]
        constructor
        · exact Or.inl
        · rintro (h | h)
          · exact h
          · exact absurd (this.2 h.1) h2
    · rw [if_pos h1, (hc _ _).1]
      have := (hc v.major w.major).2
      constructor
      · exact Or.inl
      · rintro (h | h)
        · exact h
        · exact absurd (this.2 h.1) h1
  have k1 := key v w hv hw a b
  have k2 := key w v hw hv b a
  have r := compareSemver_cmp.range s t
  have an := compareSemver_cmp.anti s t
  refine ⟨?_, ?_, ?_⟩
  · rw [← k1]
    show compareSemver s t = -1 ↔ compareSemver s t < 0
    omega
  · rw [← k2]
    show compareSemver s t = 1 ↔ compareSemver t s < 0
    omega
  · rw [isNewer, decide_eq_true_iff, ← k1]
    show 0 < compareSemver t s ↔ compareSemver s t < 0
    omega

example : Version.Plain ⟨1, 2, 3, [.alnum (lit "beta"), .num 2], some (lit "x-5")⟩ where
  wf := by
    intro s hs
    simp at hs
    subst hs
    exact ⟨by decide, by decide⟩
  small := by decide
  nums := by intro n hn; simp at hn; omega
  noMinus := by intro d hd; simp at hd; exact absurd hd (by simp [lit, ch])
  noDescribe := by
    intro a d h _ e
    have h1 : ch '-' ∈ Version.preText ⟨1, 2, 3, [.alnum (lit "beta"), .num 2], some (lit "x-5")⟩ := by
      rw [e]; simp
    exact absurd h1 (by decide +kernel)

/-! ### C37: the update -/

theorem pickLoop_cons (pre : Bool) (r : Release) (rs : List Release) (best : Option Release) :
    pickLoop pre (r :: rs) best =
      if r.prerelease ≠ pre then pickLoop pre rs best
      else match best with
        | none => pickLoop pre rs (some r)
        | some b => if 0 < compareSemver r.tag b.tag then pickLoop pre rs (some r)
                    else pickLoop pre rs (some b) := rfl

theorem pickLoop_spec (pre : Bool) (rs : List Release) : ∀ best : Option Release,
    (∀ b, best = some b → b.prerelease = pre) →
    (∀ r, pickLoop pre rs best = some r → r.prerelease = pre ∧ (r ∈ rs ∨ best = some r) ∧
      (∀ q ∈ rs, q.prerelease = pre → compareSemver q.tag r.tag ≤ 0) ∧
      (∀ b, best = some b → compareSemver b.tag r.tag ≤ 0)) ∧
    (pickLoop pre rs best = none → best = none ∧ ∀ q ∈ rs, q.prerelease ≠ pre) := by
  induction rs with
  | nil =>
    intro best hb
    refine ⟨fun r h => ⟨hb r h, Or.inr h, by simp, fun b e => ?_⟩, fun h => ⟨h, by simp⟩⟩
    change best = some r at h
    rw [h] at e
    injection e with e
    rw [e, compareSemver_cmp.refl]
  | cons x rs ih =>
    intro best hb
    rw [pickLoop_cons]
    by_cases hx : x.prerelease = pre
    · rw [if_neg (not_not_intro hx)]
      cases best with
      | none =>
        simp only
        obtain ⟨i1, i2⟩ := ih (some x) (fun b e => by injection e with e; rw [← e]; exact hx)
        refine ⟨fun r h => ?_, fun h => ?_⟩
        · obtain ⟨a, b, c, d⟩ := i1 r h
          refine ⟨a, ?_, ?_, by simp⟩
          · rcases b with b | b
            · exact Or.inl (List.mem_cons_of_mem _ b)
            · injection b with b; rw [b]; exact Or.inl (by simp)
          · intro q hq hp
            rcases List.mem_cons.1 hq with rfl | hq
            · exact d _ rfl
            · exact c q hq hp
        · exact absurd (i2 h).1 (by simp)
      | some b0 =>
        simp only
        by_cases hc : 0 < compareSemver x.tag b0.tag
        · rw [if_pos hc]
          obtain ⟨i1, i2⟩ := ih (some x) (fun b e => by injection e with e; rw [← e]; exact hx)
          refine ⟨fun r h => ?_, fun h => absurd (i2 h).1 (by simp)⟩
          obtain ⟨a, b, c, d⟩ := i1 r h
          refine ⟨a, ?_, ?_, ?_⟩
          · rcases b with b | b
            · exact Or.inl (List.mem_cons_of_mem _ b)
            · injection b with b; rw [b]; exact Or.inl (by simp)
          · intro q hq hp
            rcases List.mem_cons.1 hq with rfl | hq
            · exact d _ rfl
            · exact c q hq hp
          · intro b1 e
            injection e with e
            subst e
            have := compareSemver_cmp.anti x.tag b0.tag
            exact compareSemver_cmp.trans _ x.tag _ (by omega) (d x rfl)
        · rw [if_neg hc]
          obtain ⟨i1, i2⟩ := ih (some b0) hb
          refine ⟨fun r h => ?_, fun h => absurd (i2 h).1 (by simp)⟩
          obtain ⟨a, b, c, d⟩ := i1 r h
          refine ⟨a, ?_, ?_, d⟩
          · rcases b with b | b
            · exact Or.inl (List.mem_cons_of_mem _ b)
            · exact Or.inr b
          · intro q hq hp
            rcases List.mem_cons.1 hq with rfl | hq
            · exact compareSemver_cmp.trans _ b0.tag _ (by omega) (d b0 rfl)
            · exact c q hq hp
    · rw [if_pos hx]
      obtain ⟨i1, i2⟩ := ih best hb
      refine ⟨fun r h => ?_, fun h => ?_⟩
      · obtain ⟨a, b, c, d⟩ := i1 r h
        refine ⟨a, ?_, ?_, d⟩
        · rcases b with b | b
          · exact Or.inl (List.mem_cons_of_mem _ b)
          · exact Or.inr b
        · intro q hq hp
          rcases List.mem_cons.1 hq with rfl | hq
          · exact absurd hp hx
          · exact c q hq hp
      · obtain ⟨a, b⟩ := i2 h
        refine ⟨a, ?_⟩
        intro q hq
        rcases List.mem_cons.1 hq with rfl | hq
        · exact hx
        · exact b q hq

/-- The build of `v` that is `n` commits after it, as printed by git describe. -/
def describeText (v : Version) (n : Nat) (hash : Str) : Str :=
  ch 'v' :: (v.text ++ ch '-' :: (natText n ++ lit "-g" ++ hash))

/-- C37 as claimed: the offered release is a newest one of its channel and newer than the running
version, which is not a build made after that release. -/
def C37_statement : Prop :=
  ∀ (rs : List Release) (version : Str) (pre : Bool) (r : Release), updateTarget rs version pre = some r →
    r ∈ rs ∧ r.prerelease = pre ∧
    (∀ q ∈ rs, q.prerelease = pre → compareSemver q.tag r.tag ≤ 0) ∧
    0 < compareSemver r.tag version ∧
    ¬ ∃ (v : Version) (n : Nat) (hash : Str), v.Plain ∧ r.tag = ch 'v' :: v.text ∧ 0 < n ∧
      hash ≠ [] ∧ (∀ c ∈ hash, isLowHex c = true) ∧ version = describeText v n hash

/-- A build 4 commits after v3.0.0 is offered v3.0.0. -/
theorem C37_witness : updateTarget [⟨lit "v3.0.0", false⟩] (lit "v3.0.0-4-g0cbcb58") false =
    some ⟨lit "v3.0.0", false⟩ := by decide +kernel

theorem C37_fails : ¬ C37_statement := by
  intro h
  refine (h _ _ _ _ C37_witness).2.2.2.2 ⟨⟨3, 0, 0, [], none⟩, 4, lit "0cbcb58", ?_, by decide +kernel,
    by decide, by decide, by decide +kernel, by decide +kernel⟩
  exact {
    wf := by intro s hs; simp at hs
    small := by decide
    nums := by intro n hn; simp at hn
    noMinus := by intro d hd; simp at hd
    noDescribe := by
      intro a d h _ e
      have h1 : ch '-' ∈ Version.preText ⟨3, 0, 0, [], none⟩ := by rw [e]; simp
      cases h1 }

/-- The offered release is on the channel asked for, at least as new as every other release of that
channel, and strictly newer than the running version; nothing is offered to a pre-release build
without --pre. Missing for the full claim: builds made after a stable release count as older. -/
theorem C37_partial (rs : List Release) (version : Str) (pre : Bool) (r : Release)
    (h : updateTarget rs version pre = some r) :
    r ∈ rs ∧ r.prerelease = pre ∧ (∀ q ∈ rs, q.prerelease = pre → compareSemver q.tag r.tag ≤ 0) ∧
    0 < compareSemver r.tag version ∧ (channel version = .pre → pre = true) := by
  unfold updateTarget at h
  by_cases hc : channel version = .pre ∧ (!pre) = true
  · rw [if_pos hc] at h; cases h
  · rw [if_neg hc] at h
    obtain ⟨s1, -⟩ := pickLoop_spec pre rs none (by simp)
    cases hp : pickLatest pre rs with
    | none => rw [hp] at h; cases h
    | some t =>
      rw [hp] at h
      simp only at h
      split at h
      · rename_i h0
        injection h with h
        subst h
        obtain ⟨a, b, c, -⟩ := s1 _ hp
        refine ⟨?_, a, c, h0, ?_⟩
        · rcases b with b | b
          · exact b
          · cases b
        · intro hch
          cases pre with
          | true => rfl
          | false => exact absurd ⟨hch, rfl⟩ hc
      · cases h

/-- If nothing is offered, then on the allowed channel no release is newer than the running version. -/
theorem C37_complete_partial (rs : List Release) (version : Str) (pre : Bool)
    (hch : channel version = .pre → pre = true) (h : updateTarget rs version pre = none) :
    ∀ q ∈ rs, q.prerelease = pre → compareSemver q.tag version ≤ 0 := by
  unfold updateTarget at h
  rw [if_neg (by rintro ⟨h1, h2⟩; rw [hch h1] at h2; cases h2)] at h
  obtain ⟨s1, s2⟩ := pickLoop_spec pre rs none (by simp)
  intro q hq hp
  cases hpk : pickLatest pre rs with
  | none => exact absurd hp ((s2 hpk).2 q hq)
  | some t =>
    rw [hpk] at h
    simp only at h
    split at h
    · cases h
    · obtain ⟨-, -, c, -⟩ := s1 _ hpk
      exact compareSemver_cmp.trans _ t.tag _ (c q hq hp) (by omega)

/-- The release notes cover exactly the releases after the running version up to the new one. -/
theorem C37_range_partial (rs : List Release) (cur latest : Str) (r : Release) :
    r ∈ releasesInRange rs cur latest ↔
      r ∈ rs ∧ 0 < compareSemver r.tag cur ∧ compareSemver r.tag latest ≤ 0 := by
  rw [releasesInRange, List.mem_filter]
  refine and_congr_right fun _ => ?_
  unfold inRange isNewer
  by_cases h1 : 0 < compareSemver r.tag cur
  · simp [h1]
  · simp [h1]

private theorem digit_mem (c : Byte) : isDigit c = true ↔ c ∈ lit "0123456789" := by
  have key : ∀ n : Fin 256, isDigit (BitVec.ofFin n : Byte) = true ↔ (BitVec.ofFin n : Byte) ∈ lit "0123456789" := by
    decide +kernel
  exact key c.toFin

private theorem lowHex_mem (c : Byte) : isLowHex c = true ↔ c ∈ lit "0123456789abcdef" := by
  have key : ∀ n : Fin 256,
      isLowHex (BitVec.ofFin n : Byte) = true ↔ (BitVec.ofFin n : Byte) ∈ lit "0123456789abcdef" := by
    decide +kernel
  exact key c.toFin

private theorem skip_all {p : Byte → Bool} {d : Str} (h : ∀ c ∈ d, p c = true) (s : Str) :
    skip p (d ++ s) = skip p s := by
  induction d with
  | nil => rfl
  | cons c d ih =>
    rw [List.cons_append, skip, if_pos (h c (by simp)), ih (fun x hx => h x (List.mem_cons_of_mem _ hx))]

/-- A version ends in a trailer of `git describe`: a count of commits, an abbreviated hash, and `-dirty` or
nothing. -/
def Trailer (s : Str) : Prop :=
  ∃ n h t, s = 45 :: (n ++ 45 :: 103 :: (h ++ t)) ∧ n ≠ [] ∧ (∀ c ∈ n, c ∈ lit "0123456789") ∧ h ≠ [] ∧
    (∀ c ∈ h, c ∈ lit "0123456789abcdef") ∧ (t = [] ∨ t = lit "-dirty")

private theorem matchHash_iff (s : Str) : matchHash s = true ↔
    ∃ h t, s = h ++ t ∧ h ≠ [] ∧ (∀ c ∈ h, c ∈ lit "0123456789abcdef") ∧ (t = [] ∨ t = lit "-dirty") := by
  constructor
  · intro hs
    cases s with
    | nil => cases hs
    | cons c r =>
      rw [matchHash, Bool.and_eq_true, Bool.or_eq_true, beq_iff_eq, beq_iff_eq] at hs
      obtain ⟨d, e1, e2⟩ := skip_suffix isLowHex r
      refine ⟨c :: d, skip isLowHex r, by rw [List.cons_append, ← e1], by simp, ?_, hs.2⟩
      intro x hx
      rcases List.mem_cons.1 hx with rfl | hx
      · exact (lowHex_mem _).1 hs.1
      · exact (lowHex_mem _).1 (e2 x hx)
  · rintro ⟨h, t, rfl, hn, hh, ht⟩
    cases h with
    | nil => exact absurd rfl hn
    | cons c h =>
      rw [List.cons_append, matchHash, skip_all (fun x hx => (lowHex_mem x).2 (hh x (List.mem_cons_of_mem _ hx))),
        (lowHex_mem c).2 (hh c (by simp))]
      rcases ht with rfl | rfl
      · rfl
      · decide

private theorem matchCount_iff (s : Str) : matchCount s = true ↔ Trailer (45 :: s) := by
  constructor
  · intro hs
    cases s with
    | nil => cases hs
    | cons c r =>
      rw [matchCount, Bool.and_eq_true] at hs
      obtain ⟨d, e1, e2⟩ := skip_suffix isDigit r
      obtain ⟨h1, h2⟩ := hs
      match hk : skip isDigit r, h2 with
      | x :: g :: t, h2 =>
        rw [hk] at e1
        simp only [Bool.and_eq_true, beq_iff_eq] at h2
        obtain ⟨⟨rfl, rfl⟩, h3⟩ := h2
        obtain ⟨h, u, rfl, q1, q2, q3⟩ := (matchHash_iff t).1 h3
        refine ⟨c :: d, h, u, by rw [e1]; rfl, by simp, ?_, q1, q2, q3⟩
        intro y hy
        rcases List.mem_cons.1 hy with rfl | hy
        · exact (digit_mem _).1 h1
        · exact (digit_mem _).1 (e2 y hy)
  · rintro ⟨n, h, t, e, n1, n2, h1, h2, h3⟩
    cases e
    cases n with
    | nil => exact absurd rfl n1
    | cons c n =>
      rw [List.cons_append, matchCount, skip_all (fun x hx => (digit_mem x).2 (n2 x (List.mem_cons_of_mem _ hx))),
        (digit_mem c).2 (n2 c (by simp)), skip, if_neg (by decide)]
      exact (matchHash_iff _).2 ⟨h, t, rfl, h1, h2, h3⟩

/-- A build is recognised as one between releases exactly by its name `dev` or by such a trailer. -/
theorem C37_channel (v : Str) : channel v = .dev ↔ v = lit "dev" ∨ ∃ a s, v = a ++ s ∧ Trailer s := by
  have hd : ∀ v : Str, describes v = true ↔ ∃ a s, v = a ++ s ∧ Trailer s := by
    intro v
    induction v with
    | nil =>
      refine ⟨fun h => (by cases h), ?_⟩
      rintro ⟨a, s, e, n, h, t, rfl, -⟩
      simp at e
    | cons c r ih =>
      rw [describes, Bool.or_eq_true, Bool.and_eq_true, beq_iff_eq, ih]
      constructor
      · rintro (⟨rfl, h⟩ | ⟨a, s, rfl, h⟩)
        · exact ⟨[], _, rfl, (matchCount_iff r).1 h⟩
        · exact ⟨c :: a, s, rfl, h⟩
      · rintro ⟨a, s, e, h⟩
        cases a with
        | nil =>
          have e : c :: r = s := e
          subst e
          obtain ⟨n, h', t, e, h2⟩ := id h
          cases e
          exact .inl ⟨rfl, (matchCount_iff _).2 h⟩
        | cons x a =>
          cases e
          exact .inr ⟨a, s, rfl, h⟩
  rw [channel]
  by_cases h1 : v = lit "dev"
  · simp [h1]
  · rw [if_neg h1]
    by_cases h2 : describes v = true
    · rw [if_pos h2]
      simp [h1, (hd v).1 h2]
    · rw [if_neg h2]
      have h3 : ¬ ∃ a s, v = a ++ s ∧ Trailer s := fun h => h2 ((hd v).2 h)
      split <;> simp [h1, h3]

example : channel (lit "v3.0.0-4-g0cbcb58-dirty") = .dev ∧ channel (lit "v3.0.0-4-g0cbcb58x") ≠ .dev := by
  decide +kernel
end Verif.Props
