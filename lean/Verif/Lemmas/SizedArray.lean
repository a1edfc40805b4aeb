import Verif.Model.SizedArray
import Mathlib.Tactic.Ring
import Mathlib.Tactic.Linarith

namespace Verif.SizedArr
open Verif

theorem length_leBytes (n : Nat) : ∀ v, (leBytes n v).length = n := by
  induction n with
  | zero => intro v; rfl
  | succ n ih => intro v; simp [leBytes, ih]

theorem leNat_leBytes (n : Nat) : ∀ v : Int, (leNat (leBytes n v) : Int) = v % 256 ^ n := by
  induction n with
  | zero => intro v; simp [leBytes, leNat, Int.emod_one]
  | succ n ih =>
    intro v
    rw [leBytes, leNat]
    push_cast
    rw [ih (v / 256), BitVec.toNat_ofInt]
    have h1 : ((v % (2 ^ 8 : Nat)).toNat : Int) = v % 256 := by
      rw [Int.toNat_of_nonneg (Int.emod_nonneg _ (by decide))]
      norm_num
    rw [h1]
    have h2 : v % 256 ^ (n + 1) = v % 256 + 256 * ((v / 256) % 256 ^ n) := by
      rw [pow_succ, mul_comm ((256 : Int) ^ n) 256]
      rw [Int.emod_def v (256 * 256 ^ n), Int.emod_def (v / 256) (256 ^ n), Int.emod_def v 256,
        ← Int.ediv_ediv_of_nonneg (by norm_num : (0 : Int) ≤ 256)]
      ring
    rw [h2]

theorem leNat_lt (bs : List Byte) : leNat bs < 256 ^ bs.length := by
  induction bs with
  | nil => simp [leNat]
  | cons b bs ih =>
    rw [leNat, List.length_cons, pow_succ]
    have := b.isLt
    omega

/-- Signed read of what was written. -/
theorem leInt_leBytes_mod (v : Int) : ∃ k : Int, leInt (leBytes 8 v) = v + k * 2 ^ 64 := by
  have h := leNat_leBytes 8 v
  have e : (256 : Int) ^ 8 = 2 ^ 64 := by norm_num
  rw [e, Int.emod_def] at h
  unfold leInt
  rw [length_leBytes]
  split
  · exact ⟨-(v / 2 ^ 64), by rw [h]; ring⟩
  · exact ⟨-(v / 2 ^ 64) - 1, by rw [h]; ring⟩

/-- `a` holds the elements `objs`, each of `esz` bytes. -/
def RepB (a : BArr) (objs : List (List Byte)) : Prop :=
  (∃ rest, a.data = objs.flatten ++ rest) ∧ (∀ o ∈ objs, o.length = a.esz) ∧
    a.len = objs.length ∧ a.data.length = a.cap * a.esz ∧ a.len ≤ a.cap

theorem flatten_length {objs : List (List Byte)} {n : Nat} (h : ∀ o ∈ objs, o.length = n) :
    objs.flatten.length = objs.length * n := by
  induction objs with
  | nil => simp
  | cons o os ih =>
    rw [List.flatten_cons, List.length_append, h o (by simp), ih fun x hx => h x (by simp [hx]),
      List.length_cons]
    ring

theorem repB_new (esz cap : Nat) : RepB (new esz cap) [] := by
  refine ⟨⟨_, rfl⟩, by simp, rfl, by simp [new], by simp [new]⟩

theorem push_repB {a : BArr} {objs : List (List Byte)} (h : RepB a objs) (o : List Byte)
    (ho : a.esz ≤ o.length) :
    ∃ b, push a o = .ok b ∧ RepB b (objs ++ [o.take a.esz]) ∧ b.esz = a.esz := by
  obtain ⟨⟨rest, h1⟩, h2, h3, h4, h5⟩ := h
  have hf := flatten_length h2
  generalize hc : (if a.cap ≤ a.len then (if a.cap < 4 then 4 else a.cap * 2) else a.cap) = c
  have hlt : a.len < c := by rw [← hc]; split <;> (try split) <;> omega
  have hle : a.cap ≤ c := by rw [← hc]; split <;> (try split) <;> omega
  have hm : a.cap * a.esz ≤ c * a.esz := Nat.mul_le_mul_right _ hle
  have hm2 : a.len * a.esz + a.esz ≤ c * a.esz := by
    have : (a.len + 1) * a.esz ≤ c * a.esz := Nat.mul_le_mul_right _ hlt
    rwa [Nat.add_mul, Nat.one_mul] at this
  simp only [push, hc, store]
  rw [if_pos ⟨ho, by simp only [List.length_append, List.length_replicate]; omega⟩]
  simp only [Outcome.bind_ok]
  refine ⟨_, rfl, ⟨⟨(a.data ++ List.replicate (c * a.esz - a.data.length) 0).drop
    (a.len * a.esz + a.esz), ?_⟩, ?_, ?_, ?_, ?_⟩, rfl⟩
  · show List.take (a.len * a.esz) (a.data ++ _) ++ _ ++ _ = _
    rw [h1, List.append_assoc objs.flatten, List.take_append_of_le_length (by rw [hf, h3]),
      List.take_of_length_le (by rw [hf, h3])]
    simp only [List.flatten_append, List.flatten_cons, List.flatten_nil, List.append_nil]
  · intro x hx
    rw [List.mem_append, List.mem_singleton] at hx
    rcases hx with hx | rfl
    · exact h2 x hx
    · show (o.take a.esz).length = a.esz
      simp [ho]
  · show a.len + 1 = _
    simp [h3]
  · show (List.take (a.len * a.esz) _ ++ o.take a.esz ++ List.drop _ _).length = c * a.esz
    simp only [List.length_append, List.length_take, List.length_drop, List.length_replicate]
    omega
  · show a.len + 1 ≤ c
    omega

theorem get_repB {a : BArr} {objs : List (List Byte)} (h : RepB a objs) (i : Nat)
    (hi : i < objs.length) : get a a.esz i = .ok objs[i] := by
  obtain ⟨⟨rest, h1⟩, h2, h3, h4, h5⟩ := h
  have e : objs = objs.take i ++ objs[i] :: objs.drop (i + 1) := by simp
  have hl : (objs.take i).flatten.length = i * a.esz := by
    rw [flatten_length (n := a.esz) fun o ho => h2 o (List.mem_of_mem_take ho)]
    simp [Nat.min_eq_left (Nat.le_of_lt hi)]
  have ho : (objs[i]).length = a.esz := h2 _ (List.getElem_mem hi)
  have hd : a.data = (objs.take i).flatten ++ (objs[i] ++ ((objs.drop (i + 1)).flatten ++ rest)) := by
    rw [h1]
    have e2 : objs.flatten = (objs.take i ++ objs[i] :: objs.drop (i + 1)).flatten := by rw [← e]
    rw [e2, List.flatten_append, List.flatten_cons]
    simp only [List.append_assoc]
  rw [get, if_neg (by omega), load]
  have hle : (i : Int).toNat * a.esz + a.esz ≤ a.data.length := by
    rw [hd]; simp only [List.length_append]; rw [hl, ho]; simp
  rw [if_pos hle]
  congr 1
  rw [hd, show (i : Int).toNat * a.esz = (objs.take i).flatten.length by rw [hl]; simp,
    List.drop_left', ← ho, List.take_left']
  · rfl
  · rfl

theorem pushAll_repB (os : List (List Byte)) : ∀ {a : BArr} {objs : List (List Byte)}, RepB a objs →
    (∀ o ∈ os, a.esz ≤ o.length) →
    ∃ b, pushAll a os = .ok b ∧ RepB b (objs ++ os.map (List.take a.esz)) ∧ b.esz = a.esz := by
  induction os with
  | nil => intro a objs h _; exact ⟨a, rfl, by simpa using h, rfl⟩
  | cons o os ih =>
    intro a objs h ho
    obtain ⟨b, hb, hr, he⟩ := push_repB h o (ho o (by simp))
    obtain ⟨c, hc, hrc, hec⟩ := ih hr fun x hx => by rw [he]; exact ho x (by simp [hx])
    refine ⟨c, ?_, ?_, by omega⟩
    · rw [pushAll, hb]; exact hc
    · rw [he] at hrc
      simpa using hrc

theorem appendAll_eq (vs : List Int) : ∀ a, appendAll a vs = pushAll a (vs.map (leBytes 8)) := by
  induction vs with
  | nil => intro a; rfl
  | cons v vs ih =>
    intro a
    rw [appendAll, List.map_cons, pushAll]
    simp only [ih]
    rfl

theorem repB_fromBytes (esz : Nat) (objs : List (List Byte)) (h : ∀ o ∈ objs, o.length = esz) :
    RepB (fromBytes esz objs.flatten objs.length) objs := by
  have hf := flatten_length h
  refine ⟨⟨_, rfl⟩, h, rfl, ?_, ?_⟩
  · simp only [fromBytes, List.length_append, List.length_replicate]
    have : objs.length * esz ≤ (if 0 < objs.length then objs.length else 4) * esz :=
      Nat.mul_le_mul_right _ (by split <;> omega)
    omega
  · simp only [fromBytes]
    split <;> omega

theorem set_repB {a : BArr} {objs : List (List Byte)} (h : RepB a objs) (i : Nat)
    (hi : i < objs.length) (o : List Byte) (ho : o.length = a.esz) :
    ∃ b, set a i o = .ok b ∧ RepB b (objs.set i o) ∧ b.esz = a.esz := by
  obtain ⟨⟨rest, h1⟩, h2, h3, h4, h5⟩ := h
  have hl : (objs.take i).flatten.length = i * a.esz := by
    rw [flatten_length (n := a.esz) fun o ho => h2 o (List.mem_of_mem_take ho)]
    simp [Nat.min_eq_left (Nat.le_of_lt hi)]
  have hoi : (objs[i]).length = a.esz := h2 _ (List.getElem_mem hi)
  have e : objs = objs.take i ++ objs[i] :: objs.drop (i + 1) := by simp
  have hd : a.data = (objs.take i).flatten ++ (objs[i] ++ ((objs.drop (i + 1)).flatten ++ rest)) := by
    rw [h1]
    have e2 : objs.flatten = (objs.take i ++ objs[i] :: objs.drop (i + 1)).flatten := by rw [← e]
    rw [e2, List.flatten_append, List.flatten_cons]
    simp only [List.append_assoc]
  have hi' : (i : Int).toNat = i := by simp
  rw [set, if_neg (by omega), store, hi']
  have hle : i * a.esz + a.esz ≤ a.data.length := by
    rw [hd]; simp only [List.length_append]; rw [hl, hoi]; omega
  rw [if_pos ⟨by omega, hle⟩]
  have ed : a.data.take (i * a.esz) ++ o.take a.esz ++ a.data.drop (i * a.esz + a.esz) =
      (objs.set i o).flatten ++ rest := by
    rw [List.set_eq_take_append_cons_drop, if_pos hi, hd, ← hl, List.take_left', ← ho,
      List.take_length, show (objs.take i).flatten.length + o.length =
        ((objs.take i).flatten ++ objs[i]).length by rw [List.length_append, hoi, ho],
      ← List.append_assoc, List.drop_left']
    · simp [List.append_assoc]
    · rfl
    · rfl
  refine ⟨_, rfl, ⟨⟨rest, ed⟩, ?_, by simp [h3], ?_, h5⟩, rfl⟩
  · intro x hx
    rcases List.mem_or_eq_of_mem_set hx with hx | rfl
    · exact h2 x hx
    · exact ho
  · show (a.data.take (i * a.esz) ++ o.take a.esz ++ a.data.drop (i * a.esz + a.esz)).length = _
    simp only [List.length_append, List.length_take, List.length_drop]
    omega

end Verif.SizedArr
