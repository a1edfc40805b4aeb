import Verif.Props.Map

/-! C73 (contains_value), C74 (merge), C75 (is_equal): /repo/grayc/src/stdlib/maps.c. -/
namespace Verif.Props
open Verif Verif.Map

variable {K V : Type}

/-! ### C73 -/

/-- `contains_value` finds exactly the live values that `memcmp` holds equal to the argument. For
integers, booleans and characters that is equality. Missing for the full claim: strings, which are
compared by address (`C73_string_witness`), and floats, compared by bits. -/
theorem C73_partial {ops : KeyOps K} {m : GrayMap K V} (I : Inv ops m) (same : V → V → Bool) (v : V) :
    ∃ b, containsValue same m v = .ok b ∧
      (b = true ↔ ∃ e ∈ ents m, same e.2 v = true) := by
  refine ⟨(ents m).any fun e => same e.2 v, ?_, ?_⟩
  · unfold containsValue
    rw [entries_spec I]
    rfl
  · rw [List.any_eq_true]

/-- A string value as stored in a map: `GrayString` holds the address of its characters and their
number. -/
structure StrVal where
  addr : Nat
  chars : List (BitVec 8)
  deriving DecidableEq

/-- `memcmp` on two `GrayString` structs: same address and same length. -/
def sameStruct (a b : StrVal) : Bool := a.addr == b.addr && a.chars.length == b.chars.length

/-- `contains_value` on string values answers whether an equal string is stored. -/
def C73_statement : Prop :=
  ∀ (ops : KeyOps Nat) (m : GrayMap Nat StrVal) (v : StrVal), Inv ops m →
    containsValue sameStruct m v = .ok ((ents m).any fun e => e.2.chars == v.chars)

def strMap : GrayMap Nat StrVal :=
  { slots := Slot.full 1 ⟨100, [97#8]⟩ :: List.replicate 7 .empty, order := [0], count := 1,
    iterating := 0 }

theorem strMap_inv : Inv { hash := fun _ => 0#64, eq := fun a b => a == b } strMap := by
  have hs : ∀ (s : Nat) k v, strMap.slots[s]? = some (.full k v) → s = 0 ∧ k = 1 := by
    intro s k v h
    cases s with
    | zero => simp [strMap] at h; exact ⟨rfl, h.1.symm⟩
    | succ s =>
      simp only [strMap, List.getElem?_cons_succ, List.getElem?_replicate] at h
      split at h <;> simp at h
  refine ⟨by decide, by decide, ?_, rfl, by decide, ?_, ?_⟩
  · intro s
    constructor
    · intro h; simp [strMap] at h; subst h; exact ⟨1, _, rfl⟩
    · rintro ⟨k, v, h⟩; simp [strMap, (hs s k v h).1]
  · intro i j k k' v v' h h' _; rw [(hs i k v h).1, (hs j k' v' h').1]
  · intro i k v h
    obtain ⟨rfl, rfl⟩ := hs i k v h
    exact ⟨0, by decide, by decide, by simp⟩

/-- The string "a" is stored; asking for another "a" at a different address answers false. -/
theorem C73_string_witness : containsValue sameStruct strMap ⟨200, [97#8]⟩ = .ok false := by
  decide

theorem C73_fails : ¬ C73_statement := by
  intro h
  have := h _ strMap ⟨200, [97#8]⟩ strMap_inv
  rw [C73_string_witness] at this
  revert this
  decide

/-! ### C74 -/

theorem setAll_spec {ops : KeyOps K} (L : Lawful ops) (d : Nat) :
    ∀ (es : List (K × V)) (m : GrayMap K V), Inv ops m → m.iterating = 0 →
      m.capacity * 3 ≤ int32Max → m.count + es.length ≤ maxLive →
      ∃ m', setAll (setDepth ops (d + 2)) es m = .ok m' ∧ Inv ops m' ∧
        m'.capacity * 3 ≤ int32Max ∧ m'.iterating = 0 ∧
        ents m' = es.foldl (fun l e => specSet ops.eq l e.1 e.2) (ents m) := by
  intro es
  induction es with
  | nil => intro m I hit h3 _; exact ⟨m, rfl, I, h3, hit, rfl⟩
  | cons e es ih =>
    intro m I hit h3 hc
    obtain ⟨k, v⟩ := e
    rw [List.length_cons] at hc
    obtain ⟨m1, h1, I1, h31, hit1, he1⟩ := setDepth_spec L I hit h3 (by omega) d k v
    have hlen : ∀ (l : List (K × V)), (specSet ops.eq l k v).length ≤ l.length + 1 := by
      intro l
      induction l with
      | nil => simp [specSet]
      | cons a t iht =>
        obtain ⟨k', v'⟩ := a
        rw [specSet]
        split
        · simp
        · simp only [List.length_cons]; omega
    have hc1 : m1.count ≤ m.count + 1 := by
      rw [← length_ents I1, he1, ← length_ents I]; exact hlen _
    obtain ⟨m', h', I', h3', hit', he'⟩ := ih m1 I1 hit1 h31 (by omega)
    refine ⟨m', ?_, I', h3', hit', ?_⟩
    · rw [setAll, h1]; exact h'
    · rw [he', he1]; rfl

theorem foldl_get {ops : KeyOps K} (L : Lawful ops) (es : List (K × V)) (l : List (K × V)) (q : K)
    (hd : es.Pairwise fun a b => ¬ ops.eq a.1 b.1 = true) :
    specGet ops.eq (es.foldl (fun l e => specSet ops.eq l e.1 e.2) l) q =
      (specGet ops.eq es q).or (specGet ops.eq l q) := by
  induction es generalizing l with
  | nil => simp [specGet]
  | cons e es ih =>
    rw [List.pairwise_cons] at hd
    rw [List.foldl_cons, ih _ hd.2, specGet_set L]
    by_cases h : ops.eq e.1 q = true
    · have hnone : specGet ops.eq es q = none := by
        unfold specGet
        rw [List.find?_eq_none.2]
        · rfl
        · intro x hx hxq
          exact hd.1 x hx (L.trans _ _ _ h (L.symm _ _ hxq))
      rw [if_pos h, hnone]
      simp [specGet, h]
    · rw [if_neg h]
      simp [specGet, h]

theorem ents_pairwise {ops : KeyOps K} {m : GrayMap K V} (I : Inv ops m) :
    (ents m).Pairwise fun a b => ¬ ops.eq a.1 b.1 = true := by
  unfold ents
  have : ∀ o : List Nat, o.Nodup → (o.filterMap (entAt m.slots)).Pairwise
      fun a b => ¬ ops.eq a.1 b.1 = true := by
    intro o
    induction o with
    | nil => intro _; exact List.Pairwise.nil
    | cons s o ih =>
      intro hn
      rw [List.nodup_cons] at hn
      cases hs : entAt m.slots s with
      | none => rw [List.filterMap_cons_none hs]; exact ih hn.2
      | some e =>
        rw [List.filterMap_cons_some hs, List.pairwise_cons]
        refine ⟨fun e' he' heq => ?_, ih hn.2⟩
        rw [List.mem_filterMap] at he'
        obtain ⟨s', hs', h'⟩ := he'
        have full : ∀ {t : Nat} {x : K × V}, entAt m.slots t = some x →
            m.slots[t]? = some (.full x.1 x.2) := by
          intro t x h
          unfold entAt at h
          split at h
          · rename_i k v hk; simp only [Option.some.injEq] at h; subst h; exact hk
          · simp at h
        have := I.distinct s s' e.1 e'.1 e.2 e'.2 (full hs) (full h') heq
        exact hn.1 (this ▸ hs')
  exact this m.order I.nodup

/-- `merge(a, b)`: every key has its value in `b`, or else its value in `a`; keys of `a` come
first. Missing for the full claim: maps with together more than 268435455 entries, where
`int32_t` arithmetic can overflow. -/
theorem C74_merge_partial {ops : KeyOps K} (L : Lawful ops) (d : Nat) {a b : GrayMap K V} (Ia : Inv ops a)
    (Ib : Inv ops b) (hsz : a.count + b.count ≤ maxLive) :
    ∃ m, merge (setDepth ops (d + 2)) a b = .ok m ∧ Inv ops m ∧ m.iterating = 0 ∧
      (∀ k, Map.get ops m k = .ok ((specGet ops.eq (ents b) k).or (specGet ops.eq (ents a) k))) ∧
      ∃ t, (ents m).map (·.1) = (ents a).map (·.1) ++ t := by
  have hM : int32Max = 2147483647 := rfl
  have hL : maxLive = 268435455 := rfl
  have hmin : minCap = 8 := rfl
  generalize hc : (if 8 < a.count + b.count then (a.count + b.count) * 2 else 8) = c
  have hc8 : 8 ≤ c := by rw [← hc]; split <;> omega
  have hc3 : c * 3 ≤ int32Max := by rw [← hc]; split <;> omega
  have hnew : (new c : GrayMap K V) =
      { slots := List.replicate c .empty, order := [], count := 0, iterating := 0 } := by
    unfold new; rw [if_neg (by omega)]
  have In : Inv ops (new c : GrayMap K V) := by rw [hnew]; exact new_inv ops c 0 hc8
  have hn3 : (new c : GrayMap K V).capacity * 3 ≤ int32Max := by
    rw [hnew]; simpa [GrayMap.capacity] using hc3
  obtain ⟨m1, h1, I1, h31, hit1, he1⟩ := setAll_spec L d (ents a) (new c) In rfl hn3
    (by rw [length_ents Ia, hnew]; show 0 + _ ≤ _; omega)
  have happ : ∀ (es l : List (K × V)), (l ++ es).Pairwise (fun a b => ¬ ops.eq a.1 b.1 = true) →
      es.foldl (fun l e => specSet ops.eq l e.1 e.2) l = l ++ es := by
    intro es
    induction es with
    | nil => intro l _; simp
    | cons e es ih =>
      intro l hp
      rw [List.foldl_cons, specSet_append, ih]
      · simp
      · simpa using hp
      · intro x hx
        exact (List.pairwise_append.1 hp).2.2 x hx e (by simp)
  have hentsNew : ents (new c : GrayMap K V) = [] := rfl
  have he1' : ents m1 = ents a := by
    rw [he1, hentsNew, happ _ [] (by simpa using ents_pairwise Ia)]; rfl
  have hc1 : m1.count = a.count := by rw [← length_ents I1, he1', length_ents Ia]
  obtain ⟨m2, h2, I2, h32, hit2, he2⟩ := setAll_spec L d (ents b) m1 I1 hit1 h31
    (by rw [length_ents Ib, hc1]; omega)
  refine ⟨m2, ?_, I2, hit2, ?_, ?_⟩
  · unfold merge
    rw [if_neg (by omega), if_neg (by omega), entries_spec Ia, entries_spec Ib]
    simp only [Outcome.bind_ok]
    rw [hc, h1]
    exact h2
  · intro k
    rw [get_spec L I2 h32, he2, he1', foldl_get L _ _ _ (ents_pairwise Ib)]
  · rw [he2, he1']
    generalize ents b = es
    generalize ents a = l
    induction es generalizing l with
    | nil => exact ⟨[], by simp⟩
    | cons e es ih =>
      obtain ⟨t, ht⟩ := ih (specSet ops.eq l e.1 e.2)
      have hk : ∃ t', (specSet ops.eq l e.1 e.2).map (·.1) = l.map (·.1) ++ t' := by
        clear ht ih he1 he2 happ hentsNew
        induction l with
        | nil => exact ⟨[e.1], rfl⟩
        | cons x l ihl =>
          obtain ⟨k', v'⟩ := x
          rw [specSet]
          split
          · exact ⟨[], by simp⟩
          · obtain ⟨t', h'⟩ := ihl
            exact ⟨t', by simp [h']⟩
      obtain ⟨t', ht'⟩ := hk
      exact ⟨t' ++ t, by rw [List.foldl_cons, ht, ht', List.append_assoc]⟩

/-! ### C75 -/

theorem equalLoop_spec {ops : KeyOps K} (L : Lawful ops) {b : GrayMap K V} (Ib : Inv ops b)
    (hb : b.capacity * 3 ≤ int32Max) (same : V → V → Bool) (es : List (K × V)) :
    equalLoop ops same b es = .ok (es.all fun e =>
      match specGet ops.eq (ents b) e.1 with | none => false | some v => same e.2 v) := by
  induction es with
  | nil => rfl
  | cons e es ih =>
    obtain ⟨k, v⟩ := e
    rw [equalLoop, get_spec L Ib hb, List.all_cons]
    cases hg : specGet ops.eq (ents b) k with
    | none => rfl
    | some v' =>
      simp only []
      by_cases hs : same v v' = true
      · rw [if_pos hs, ih, hs]; rfl
      · rw [if_neg hs]
        simp only [Bool.not_eq_true] at hs
        rw [hs]; rfl

/-- A list of keys, pairwise different, all found in another list of pairwise different keys of
the same length: then conversely. -/
theorem keys_onto {ops : KeyOps K} (L : Lawful ops) : ∀ (la lb : List (K × V)),
    la.Pairwise (fun a b => ¬ ops.eq a.1 b.1 = true) →
    lb.Pairwise (fun a b => ¬ ops.eq a.1 b.1 = true) →
    (∀ e ∈ la, ∃ f ∈ lb, ops.eq f.1 e.1 = true) → lb.length ≤ la.length →
    ∀ f ∈ lb, ∃ e ∈ la, ops.eq f.1 e.1 = true := by
  intro la
  induction la with
  | nil =>
    intro lb _ _ _ hlen f hf
    cases lb with
    | nil => simp at hf
    | cons _ _ => simp at hlen
  | cons e la ih =>
    intro lb ha hb hin hlen f hf
    obtain ⟨g, hg, hge⟩ := hin e (by simp)
    by_cases hfe : ops.eq f.1 e.1 = true
    · exact ⟨e, by simp, hfe⟩
    · -- drop from lb the entry matching e
      rw [List.pairwise_cons] at ha
      have hfilt : ∀ x ∈ lb.filter (fun x => !ops.eq x.1 e.1), x ∈ lb := fun x hx =>
        (List.mem_filter.1 hx).1
      have hlt : (lb.filter fun x => !ops.eq x.1 e.1).length < lb.length := by
        apply Nat.lt_of_le_of_ne (List.length_filter_le _ _)
        intro h
        have := List.length_filter_eq_length_iff.1 h g hg
        simp [hge] at this
      have := ih (lb.filter fun x => !ops.eq x.1 e.1) ha.2 (hb.filter _) (by
        intro e' he'
        obtain ⟨f', hf', hfe'⟩ := hin e' (by simp [he'])
        refine ⟨f', List.mem_filter.2 ⟨hf', ?_⟩, hfe'⟩
        simp only [Bool.not_eq_true']
        rw [Bool.eq_false_iff]
        intro hc
        exact ha.1 e' he' (L.trans _ _ _ (L.symm _ _ hc) hfe')) (by
          simp only [List.length_cons] at hlen; omega) f (List.mem_filter.2 ⟨hf, by simpa using hfe⟩)
      obtain ⟨e', he', h'⟩ := this
      exact ⟨e', by simp [he'], h'⟩

theorem specGet_some {ops : KeyOps K} (L : Lawful ops) {l : List (K × V)}
    (hp : l.Pairwise fun a b => ¬ ops.eq a.1 b.1 = true) {e : K × V} (he : e ∈ l) {k : K}
    (hk : ops.eq e.1 k = true) : specGet ops.eq l k = some e.2 := by
  induction l with
  | nil => simp at he
  | cons a t ih =>
    rw [List.pairwise_cons] at hp
    simp only [specGet, List.find?_cons] at ih ⊢
    rcases List.mem_cons.1 he with rfl | he
    · simp [hk]
    · have : ops.eq a.1 k = false := by
        rw [Bool.eq_false_iff]
        intro h
        exact hp.1 e he (L.trans _ _ _ h (L.symm _ _ hk))
      rw [this]
      exact ih hp.2 he

/-- `is_equal` answers true exactly when both maps have the same keys with values held equal by
the comparison used for the value type. Missing for the full claim: that comparison is `memcmp` for
everything but strings, so floats, arrays and nested maps are compared by representation. -/
theorem C75_is_equal_partial {ops : KeyOps K} (L : Lawful ops) {a b : GrayMap K V} (Ia : Inv ops a)
    (Ib : Inv ops b) (ha : a.capacity * 3 ≤ int32Max) (hb : b.capacity * 3 ≤ int32Max)
    (same : V → V → Bool) :
    ∃ r, isEqual ops same a b = .ok r ∧
      (r = true ↔ ∀ k, match Map.get ops a k, Map.get ops b k with
        | .ok none, .ok none => True
        | .ok (some x), .ok (some y) => same x y = true
        | _, _ => False) := by
  have hget : ∀ k, (match Map.get ops a k, Map.get ops b k with
        | .ok none, .ok none => True
        | .ok (some x), .ok (some y) => same x y = true
        | _, _ => False) ↔ (match specGet ops.eq (ents a) k, specGet ops.eq (ents b) k with
        | none, none => True
        | some x, some y => same x y = true
        | _, _ => False) := by
    intro k
    rw [get_spec L Ia ha, get_spec L Ib hb]
    cases specGet ops.eq (ents a) k <;> cases specGet ops.eq (ents b) k <;> simp
  simp only [hget]
  clear hget
  have pa := ents_pairwise Ia
  have pb := ents_pairwise Ib
  have la := length_ents Ia
  have lb := length_ents Ib
  have hnone : ∀ (l : List (K × V)) k, specGet ops.eq l k = none →
      ∀ e ∈ l, ¬ ops.eq e.1 k = true := by
    intro l k h e he hk
    unfold specGet at h
    rw [Option.map_eq_none_iff, List.find?_eq_none] at h
    exact h e he hk
  have hsome : ∀ (l : List (K × V)) k v, specGet ops.eq l k = some v →
      ∃ e ∈ l, ops.eq e.1 k = true ∧ e.2 = v := by
    intro l k v h
    unfold specGet at h
    rw [Option.map_eq_some_iff] at h
    obtain ⟨e, he, hv⟩ := h
    exact ⟨e, List.mem_of_find?_eq_some he, by simpa using List.find?_some he, hv⟩
  have hcong : ∀ (l : List (K × V)) k k', ops.eq k k' = true →
      specGet ops.eq l k = specGet ops.eq l k' := by
    intro l k k' h
    unfold specGet
    congr 2
    funext e
    rw [Bool.eq_iff_iff]
    exact ⟨fun x => L.trans _ _ _ x h, fun x => L.trans _ _ _ x (L.symm _ _ h)⟩
  unfold isEqual
  by_cases hc : a.count ≠ b.count
  · refine ⟨false, by rw [if_pos hc], ?_⟩
    simp only [Bool.false_eq_true, false_iff]
    intro h
    apply hc
    have hab : ∀ e ∈ ents a, ∃ f ∈ ents b, ops.eq f.1 e.1 = true := by
      intro e he
      have := h e.1
      rw [specGet_some L pa he (L.refl _)] at this
      cases hg : specGet ops.eq (ents b) e.1 with
      | none => rw [hg] at this; simp at this
      | some v => obtain ⟨f, hf, hk, _⟩ := hsome _ _ _ hg; exact ⟨f, hf, hk⟩
    have hba : ∀ e ∈ ents b, ∃ f ∈ ents a, ops.eq f.1 e.1 = true := by
      intro e he
      have := h e.1
      rw [specGet_some L pb he (L.refl _)] at this
      cases hg : specGet ops.eq (ents a) e.1 with
      | none => rw [hg] at this; simp at this
      | some v => obtain ⟨f, hf, hk, _⟩ := hsome _ _ _ hg; exact ⟨f, hf, hk⟩
    have hle : ∀ (l1 l2 : List (K × V)), l1.Pairwise (fun a b => ¬ ops.eq a.1 b.1 = true) →
        (∀ e ∈ l1, ∃ f ∈ l2, ops.eq f.1 e.1 = true) → l1.length ≤ l2.length := by
      intro l1
      induction l1 with
      | nil => intro l2 _ _; simp
      | cons e l1 ih =>
        intro l2 hp hin
        rw [List.pairwise_cons] at hp
        obtain ⟨g, hg, hge⟩ := hin e (by simp)
        have h1 := ih (l2.filter fun x => !ops.eq x.1 e.1) hp.2 (by
          intro e' he'
          obtain ⟨f', hf', hfe'⟩ := hin e' (by simp [he'])
          refine ⟨f', List.mem_filter.2 ⟨hf', ?_⟩, hfe'⟩
          simp only [Bool.not_eq_true']
          rw [Bool.eq_false_iff]
          intro hc
          exact hp.1 e' he' (L.trans _ _ _ (L.symm _ _ hc) hfe'))
        have h2 : (l2.filter fun x => !ops.eq x.1 e.1).length < l2.length := by
          apply Nat.lt_of_le_of_ne (List.length_filter_le _ _)
          intro h
          have := List.length_filter_eq_length_iff.1 h g hg
          simp [hge] at this
        simp only [List.length_cons]; omega
    have h1 := hle _ _ pa hab
    have h2 := hle _ _ pb hba
    omega
  · rw [if_neg hc, entries_spec Ia]
    simp only [Outcome.bind_ok]
    rw [equalLoop_spec L Ib hb]
    refine ⟨_, rfl, ?_⟩
    rw [List.all_eq_true]
    constructor
    · intro h k
      have hab : ∀ e ∈ ents a, ∃ f ∈ ents b, ops.eq f.1 e.1 = true := by
        intro e he
        have := h e he
        cases hg : specGet ops.eq (ents b) e.1 with
        | none => rw [hg] at this; simp at this
        | some v => obtain ⟨f, hf, hk, _⟩ := hsome _ _ _ hg; exact ⟨f, hf, hk⟩
      have honto := keys_onto L (ents a) (ents b) pa pb hab (by omega)
      cases hga : specGet ops.eq (ents a) k with
      | none =>
        cases hgb : specGet ops.eq (ents b) k with
        | none => trivial
        | some v =>
          obtain ⟨f, hf, hk, _⟩ := hsome _ _ _ hgb
          obtain ⟨e, he, hfe⟩ := honto f hf
          exact absurd (L.trans _ _ _ (L.symm _ _ hfe) hk) (hnone _ _ hga e he)
      | some v =>
        obtain ⟨e, he, hk, hv⟩ := hsome _ _ _ hga
        have := h e he
        rw [hcong _ _ _ hk] at this
        subst hv
        cases hgb : specGet ops.eq (ents b) k with
        | none => rw [hgb] at this; simp at this
        | some w => rw [hgb] at this; exact this
    · intro h e he
      have := h e.1
      rw [specGet_some L pa he (L.refl _)] at this
      cases hgb : specGet ops.eq (ents b) e.1 with
      | none => rw [hgb] at this; simp at this
      | some w => rw [hgb] at this; exact this

/-- Non-vacuity: two maps filled in different orders, and merging. -/
example : ((runMap collideOps 2 8 [.set 1 10, .set 2 20]).bind fun a =>
    (runMap collideOps 2 8 [.set 2 20, .set 1 10]).bind fun b =>
      isEqual collideOps (· == ·) a b) = .ok true := by decide +kernel

example : ((runMap collideOps 2 8 [.set 1 10, .set 2 20]).bind fun a =>
    (runMap collideOps 2 8 [.set 2 21, .set 3 30]).bind fun b =>
      (merge (setDepth collideOps 2) a b).bind entries) = .ok [(2, 21), (1, 10), (3, 30)] := by
  decide +kernel

end Verif.Props
