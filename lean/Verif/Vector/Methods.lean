import Verif.Vector.Mid
/-
C64: the methods of `vector` that call a method of `Vec`, as steps, and what they do to the list of elements.
-/
namespace Verif.Vector
open Verif

/-- Move element `i + k` to place `i`. -/
def moveDown (i : Nat) : Nat → List Prim
  | 0 => []
  | k + 1 => .swap (i + k) (i + k + 1) :: moveDown i k

/-- Move element `i` to place `i + k`. -/
def moveUp (i : Nat) : Nat → List Prim
  | 0 => []
  | k + 1 => .swap i (i + 1) :: moveUp (i + 1) k

/-- Room for `add` more elements; `grow` is the new capacity if it has to grow. -/
def reservePs (len cap add grow : Nat) : List Prim := if len + add ≤ cap then [] else [.realloc grow]

/-- `push`, lines 344-346. -/
def pushPs (len cap e grow : Nat) : List Prim := reservePs len cap 1 grow ++ [.write e]
/-- `insert`, lines 348-350. -/
def insertPs (len cap i e grow : Nat) : List Prim := reservePs len cap 1 grow ++ .write e :: moveDown i (len - i)
/-- `extend` with elements of an iterator, lines 607-615. -/
def extendPs (len cap : Nat) (es : List Nat) (grow : Nat) : List Prim := reservePs len cap es.length grow ++ extendPrims es
/-- `remove`, lines 360-362. -/
def removePs (len i : Nat) : List Prim := moveUp i (len - i - 1) ++ [.take]
/-- `swap_remove`, lines 356-358. -/
def swapRemovePs (len i : Nat) : List Prim := [.swap i (len - 1), .take]
/-- `pop`, lines 364-366. -/
def popPs (len : Nat) : List Prim := if len = 0 then [] else [.take]
/-- `truncate`, lines 372-374; the elements are dropped from the first to the last. -/
def dropFrom (i : Nat) : Nat → List Prim
  | 0 => []
  | k + 1 => moveUp i k ++ .dropLast :: dropFrom i k
def truncatePs (len n : Nat) : List Prim := dropFrom n (len - n)
/-- `retain`, lines 393-398: the elements `es` from place `i` on are tested in turn. -/
def retainPs (f : Nat → Bool) (i : Nat) : List Nat → List Prim
  | [] => []
  | e :: es => .look i :: if f e then retainPs f (i + 1) es else moveUp i es.length ++ .dropLast :: retainPs f i es

theorem moveDown_spec (w : World) (cap : Nat) (p q t : List Nat) (e : Nat) :
    specPrims w (p ++ q ++ e :: t) cap (moveDown p.length q.length) = some (w, p ++ e :: q ++ t, cap) := by
  generalize hk : q.length = k
  induction k generalizing q t with
  | zero =>
    have : q = [] := List.eq_nil_of_length_eq_zero hk
    subst this
    simp [moveDown, specPrims]
  | succ k ih =>
    have hne : q ≠ [] := by rintro rfl; simp at hk
    obtain ⟨q', x, rfl⟩ : ∃ q' x, q = q' ++ [x] := ⟨q.dropLast, q.getLast hne, (List.dropLast_concat_getLast hne).symm⟩
    have hq' : q'.length = k := by simpa using hk
    have h1 : (p ++ (q' ++ [x]) ++ e :: t)[p.length + k]? = some x := by
      rw [List.append_assoc, List.getElem?_append_right (by omega)]
      have : p.length + k - p.length = k := by omega
      rw [this, List.append_assoc, List.getElem?_append_right (by omega)]
      simp [hq']
    have h2 : (p ++ (q' ++ [x]) ++ e :: t)[p.length + k + 1]? = some e := by
      rw [List.getElem?_append_right (by simp; omega)]
      have : p.length + k + 1 - (p ++ (q' ++ [x])).length = 0 := by simp; omega
      rw [this]; simp
    have h3 : ((p ++ (q' ++ [x]) ++ e :: t).set (p.length + k) e).set (p.length + k + 1) x = p ++ q' ++ e :: (x :: t) := by
      have e1 : p ++ (q' ++ [x]) ++ e :: t = (p ++ q') ++ (x :: e :: t) := by simp
      have hl : (p ++ q').length = p.length + k := by simp [hq']
      rw [e1, ← hl, List.set_append_right _ _ (Nat.le_refl _), Nat.sub_self]
      rw [List.set_append_right _ _ (by omega)]
      have : (p ++ q').length + 1 - (p ++ q').length = 1 := by omega
      rw [this]; simp
    simp only [moveDown, specPrims, Prim.spec, h1, h2, Option.bind_eq_bind, Option.bind_some, h3, Option.pure_def]
    rw [ih q' (x :: t) hq']
    simp

theorem moveUp_spec (w : World) (cap : Nat) (p q t : List Nat) (e : Nat) :
    specPrims w (p ++ e :: q ++ t) cap (moveUp p.length q.length) = some (w, p ++ q ++ e :: t, cap) := by
  induction q generalizing p with
  | nil => simp [moveUp, specPrims]
  | cons x q ih =>
    have h1 : (p ++ e :: (x :: q) ++ t)[p.length]? = some e := by simp
    have h2 : (p ++ e :: (x :: q) ++ t)[p.length + 1]? = some x := by
      rw [List.append_assoc, List.getElem?_append_right (by omega)]
      have : p.length + 1 - p.length = 1 := by omega
      rw [this]; simp
    have h3 : ((p ++ e :: (x :: q) ++ t).set p.length x).set (p.length + 1) e = (p ++ [x]) ++ e :: q ++ t := by
      rw [List.append_assoc, List.set_append_right _ _ (Nat.le_refl _), Nat.sub_self, List.set_append_right _ _ (by omega)]
      have : p.length + 1 - p.length = 1 := by omega
      rw [this]; simp
    simp only [List.length_cons, moveUp, specPrims, Prim.spec, h1, h2, Option.bind_eq_bind, Option.bind_some, h3, Option.pure_def]
    have := ih (p ++ [x])
    simp only [List.length_append, List.length_singleton] at this
    rw [this]
    simp

theorem moveUp_end (w : World) (cap : Nat) (p q : List Nat) (e : Nat) :
    specPrims w (p ++ e :: q) cap (moveUp p.length q.length) = some (w, p ++ q ++ [e], cap) := by
  have := moveUp_spec w cap p q [] e
  simpa using this

theorem reserve_spec (w : World) (es : List Nat) (cap add grow : Nat) (hg : es.length + add ≤ cap ∨ es.length + add ≤ grow) :
    ∃ c, specPrims w es cap (reservePs es.length cap add grow) = some (w, es, c) ∧ es.length + add ≤ c ∧ (es.length + add ≤ cap → c = cap) := by
  unfold reservePs
  split
  · next h => exact ⟨cap, rfl, h, fun _ => rfl⟩
  · next h =>
    have hg' : es.length ≤ grow := by omega
    refine ⟨grow, by simp [specPrims, Prim.spec, hg'], by omega, fun h' => absurd h' h⟩

theorem dropFrom_spec (w : World) (cap : Nat) (p q : List Nat) :
    specPrims w (p ++ q) cap (dropFrom p.length q.length) = some (w.dropAll q, p, cap) := by
  induction q generalizing w with
  | nil => simp [dropFrom, specPrims, World.dropAll]
  | cons e q ih =>
    simp only [List.length_cons, dropFrom]
    rw [specPrims_append, moveUp_end]
    simp only [Option.bind_some, specPrims, Prim.spec, Option.bind_eq_bind]
    have h1 : (p ++ q ++ [e]).getLast? = some e := by simp
    have h2 : (p ++ q ++ [e]).dropLast = p ++ q := by simp
    simp only [h1, h2, Option.bind_some, Option.pure_def]
    rw [ih]
    rfl

theorem retain_spec (w : World) (cap : Nat) (f : Nat → Bool) (p q : List Nat) :
    specPrims w (p ++ q) cap (retainPs f p.length q) = some (w.dropAll (q.filter fun e => !f e), p ++ q.filter f, cap) := by
  induction q generalizing w p with
  | nil => simp [retainPs, specPrims, World.dropAll]
  | cons e q ih =>
    have hlook : Prim.spec w (p ++ e :: q) cap (.look p.length) = some (w, p ++ e :: q, cap) := by
      simp [Prim.spec]
    simp only [retainPs, specPrims, hlook, Option.bind_eq_bind, Option.bind_some]
    cases hf : f e with
    | true =>
      have := ih w (p ++ [e])
      simp only [List.length_append, List.length_singleton] at this
      simp only [if_true, List.filter_cons, hf]
      rw [show p ++ e :: q = p ++ [e] ++ q by simp, this]
      simp
    | false =>
      simp only [Bool.false_eq_true, if_false, List.filter_cons, hf, Bool.not_false, if_true]
      rw [specPrims_append, moveUp_end]
      have h1 : (p ++ q ++ [e]).getLast? = some e := by simp
      have h2 : (p ++ q ++ [e]).dropLast = p ++ q := by simp
      simp only [Option.bind_some, specPrims, Prim.spec, h1, h2, Option.bind_eq_bind, Option.pure_def]
      rw [ih]
      rfl

/-- What the methods do to the elements. -/
theorem methods (w : World) (es : List Nat) (cap : Nat) :
    (∀ e grow, e ∈ w.hand → (es.length < cap ∨ es.length < grow) →
      ∃ c, specPrims w es cap (pushPs es.length cap e grow) = some ({ w with hand := w.hand.erase e }, es ++ [e], c)) ∧
    (∀ i e grow, e ∈ w.hand → i ≤ es.length → (es.length < cap ∨ es.length < grow) →
      ∃ c, specPrims w es cap (insertPs es.length cap i e grow) = some ({ w with hand := w.hand.erase e }, es.take i ++ e :: es.drop i, c)) ∧
    (∀ fs hd grow, w.hand = fs ++ hd → (es.length + fs.length ≤ cap ∨ es.length + fs.length ≤ grow) →
      ∃ c, specPrims w es cap (extendPs es.length cap fs grow) = some ({ w with hand := hd }, es ++ fs, c)) ∧
    (∀ i, (h : i < es.length) →
      specPrims w es cap (removePs es.length i) = some ({ w with hand := es[i] :: w.hand }, es.take i ++ es.drop (i + 1), cap)) ∧
    (∀ i, (h : i < es.length) →
      specPrims w es cap (swapRemovePs es.length i) = some ({ w with hand := es[i] :: w.hand }, (es.set i es[es.length - 1]).dropLast, cap)) ∧
    (specPrims w es cap (popPs es.length) = some (match es.getLast? with
      | some e => { w with hand := e :: w.hand }
      | none => w, es.dropLast, cap)) ∧
    (∀ n, specPrims w es cap (truncatePs es.length n) = some (w.dropAll (es.drop n), es.take n, cap)) ∧
    (∀ f, specPrims w es cap (retainPs f 0 es) = some (w.dropAll (es.filter fun e => !f e), es.filter f, cap)) := by
  refine ⟨?_, ?_, ?_, ?_, ?_, ?_, ?_, ?_⟩
  · intro e grow he hg
    obtain ⟨c, h1, h2, -⟩ := reserve_spec w es cap 1 grow (by omega)
    refine ⟨c, ?_⟩
    rw [pushPs, specPrims_append, h1]
    have : es.length < c := by omega
    simp [specPrims, Prim.spec, he, this]
  · intro i e grow he hi hg
    obtain ⟨c, h1, h2, -⟩ := reserve_spec w es cap 1 grow (by omega)
    refine ⟨c, ?_⟩
    rw [insertPs, specPrims_append, h1]
    have hlt : es.length < c := by omega
    simp only [Option.bind_some, specPrims, Prim.spec, he, hlt, and_self, if_true, Option.bind_eq_bind]
    have hd := moveDown_spec { w with hand := w.hand.erase e } c (es.take i) (es.drop i) [] e
    have hl : (es.take i).length = i := by simp; omega
    rw [hl, List.length_drop] at hd
    simp only [List.take_append_drop, List.append_nil] at hd
    exact hd
  · intro fs hd grow hh hg
    obtain ⟨c, h1, h2, -⟩ := reserve_spec w es cap fs.length grow hg
    refine ⟨c, ?_⟩
    rw [extendPs, specPrims_append, h1]
    exact extend_spec w hd fs es c h2 hh
  · intro i h
    have hs : es = es.take i ++ es[i] :: es.drop (i + 1) := by simp
    have hm := moveUp_end w cap (es.take i) (es.drop (i + 1)) es[i]
    have hl : (es.take i).length = i := by simp; omega
    rw [← hs, hl, List.length_drop] at hm
    rw [removePs, show es.length - i - 1 = es.length - (i + 1) by omega, specPrims_append, hm]
    simp [specPrims, Prim.spec, List.dropLast_append_of_ne_nil]
  · intro i h
    have h1 : es[i]? = some es[i] := by simp [h]
    have h2 : es[es.length - 1]? = some es[es.length - 1] := List.getElem?_eq_getElem (by omega)
    simp only [swapRemovePs, specPrims, Prim.spec, h1, h2, Option.bind_eq_bind, Option.bind_some, Option.pure_def]
    have h3 : ((es.set i es[es.length - 1]).set (es.length - 1) es[i]).getLast? = some es[i] := by
      rw [List.getLast?_eq_getElem?]
      simp only [List.length_set]
      rw [List.getElem?_set_self (by simp; omega)]
    rw [h3]
    simp only [Option.bind_some, Option.some.injEq, Prod.mk.injEq, true_and, and_true]
    rw [List.dropLast_eq_take, List.dropLast_eq_take]
    simp only [List.length_set]
    rw [List.take_set_of_le (Nat.le_refl _)]
  · unfold popPs
    split
    · next h => rw [List.eq_nil_of_length_eq_zero h]; rfl
    · next h =>
      cases hl : es.getLast? with
      | none => rw [List.getLast?_eq_none_iff] at hl; subst hl; simp at h
      | some e => simp [specPrims, Prim.spec, hl]
  · intro n
    by_cases hn : n ≤ es.length
    · have := dropFrom_spec w cap (es.take n) (es.drop n)
      have hl : (es.take n).length = n := by simp; omega
      rw [hl, List.length_drop] at this
      simpa [truncatePs] using this
    · have h1 : es.length - n = 0 := by omega
      rw [truncatePs, h1, List.drop_eq_nil_of_le (by omega), List.take_of_length_le (by omega)]
      rfl
  · intro f
    have := retain_spec w cap f [] es
    simpa using this

end Verif.Vector
