import Verif.FnCall.Call

/-!
# C78, C79: calling Rust from C++

Statements about the whole run of a generated wrapper, for every signature (any number of
parameters, tuples nested to any depth, every passing convention), with and without
`LayoutCompatTuple`, for free functions and methods, and for every function body `f`.
-/

namespace Verif.FnCall

/-- The signatures the bindings handle: no by-value type has drop glue, tuples are of the accepted
kind. -/
def GoodSig (lct : Bool) (params : List Ty) (ret : Ty) : Prop :=
  (∀ t ∈ params, ScalarsTrivial t ∧ TuplesOk lct t) ∧ (lct = true → TuplesOk lct ret)

/-- **C78.** The body runs on exactly the values the caller passed, and the caller gets exactly what
the body returned. -/
theorem call_delivers (K : Convs) (lct isMethod : Bool) (params : List Ty) (ret : Ty)
    (f : List Val → Val) (args : List Val) (hsig : GoodSig lct params ret)
    (hargs : HasTys params args) (hf : ∀ seen, HasTy ret (f seen)) :
    ∃ o, runCall K lct isMethod params ret f args = some o ∧
      o.seen = rustOfs K params args ∧
      o.result = cppOf K ret (f (rustOfs K params args)) := by
  obtain ⟨o, h, h1, h2, _⟩ := run_call K lct isMethod params ret f args hsig.1 hsig.2 hargs (hf _)
  exact ⟨o, h, h1, h2⟩

mutual
/-- No conversion function and no codec is involved, tuples included: the types C++ programmers see
as "the same type in both languages". -/
def Plain : Ty → Prop
  | .legacyPtr c => c = none
  | .legacyVal c _ => c = none
  | .composable _ => False
  | .tup ts => PlainAll ts
  | _ => True
def PlainAll : List Ty → Prop
  | [] => True
  | t :: ts => Plain t ∧ PlainAll ts
end

mutual
theorem plain_same : ∀ t, Plain t → SameBytes t
  | .scalar _, _ => by simp [SameBytes]
  | .adt _, _ => by simp [SameBytes]
  | .legacyPtr _, h => by simpa [SameBytes, Plain] using h
  | .legacyVal _ _, h => by simpa [SameBytes, Plain] using h
  | .composable _, h => by simp [Plain] at h
  | .tup ts, h => by simp only [Plain] at h; simpa [SameBytes] using plainAll_same ts h
theorem plainAll_same : ∀ ts, PlainAll ts → SameBytesAll ts
  | [], _ => by simp [SameBytesAll]
  | t :: ts, h => by
      simp only [PlainAll] at h
      simpa [SameBytesAll] using ⟨plain_same t h.1, plainAll_same ts h.2⟩
end

/-- **C78, the common case.** If every type in the signature is the same in both languages, the call
is the identity on arguments and on the result. -/
theorem plain_call_is_call (K : Convs) (lct isMethod : Bool) (params : List Ty) (ret : Ty)
    (f : List Val → Val) (args : List Val) (hsig : GoodSig lct params ret)
    (hargs : HasTys params args) (hf : ∀ seen, HasTy ret (f seen))
    (hp : PlainAll params) (hr : Plain ret) :
    ∃ o, runCall K lct isMethod params ret f args = some o ∧ o.seen = args ∧ o.result = f args := by
  obtain ⟨o, h, h1, h2⟩ := call_delivers K lct isMethod params ret f args hsig hargs hf
  have e := rustOfs_sameBytes K params args hargs (plainAll_same _ hp)
  refine ⟨o, h, by rw [h1, e], ?_⟩
  rw [h2, e, (cppOf_sameBytes K ret _ (hf _) (plain_same _ hr)).1]

mutual
theorem rustOf_owns (K : Convs) : ∀ (t : Ty) (v : Val), HasTy t v → (rustOf K t v).owns = v.owns
  | .scalar _, .leaf _, _ => by simp [rustOf]
  | .adt _, .leaf _, _ => by simp [rustOf]
  | .legacyPtr c, .leaf _, _ => by cases c <;> simp [rustOf, Val.owns]
  | .legacyVal c _, .leaf _, _ => by cases c <;> simp [rustOf, Val.owns]
  | .composable _, .leaf _, _ => by simp [rustOf, Val.owns]
  | .tup ts, .tup vs, h => by
      simp only [HasTy] at h
      simp [rustOf, Val.owns, rustOfs_owns K ts vs h]
  | .scalar _, .tup _, h => by simp [HasTy] at h
  | .adt _, .tup _, h => by simp [HasTy] at h
  | .legacyPtr _, .tup _, h => by simp [HasTy] at h
  | .legacyVal _ _, .tup _, h => by simp [HasTy] at h
  | .composable _, .tup _, h => by simp [HasTy] at h
  | .tup _, .leaf _, h => by simp [HasTy] at h
theorem rustOfs_owns (K : Convs) : ∀ (ts : List Ty) (vs : List Val), HasTys ts vs →
    ownsAll (rustOfs K ts vs) = ownsAll vs
  | [], [], _ => by simp [rustOfs]
  | t :: ts, v :: vs, h => by
      simp only [HasTys] at h
      simp [rustOfs, ownsAll, rustOf_owns K t v h.1, rustOfs_owns K ts vs h.2]
  | [], _ :: _, h => by simp [HasTys] at h
  | _ :: _, [], h => by simp [HasTys] at h
end

/-- What an object in memory would release if it were destroyed. -/
def objOwns : Option Obj → List Nat
  | some (.val v) => v.owns
  | _ => []

/-- **C79.** Ownership: the body owns exactly what the arguments owned; no argument object on the C++
side owns anything any more (so destroying the by-value parameters, or later `*this`, releases
nothing), the wrapper's own destructors release nothing, and what Rust drops of the result are exactly
the originals of what conversion functions cloned. -/
theorem call_ownership (K : Convs) (lct isMethod : Bool) (params : List Ty) (ret : Ty)
    (f : List Val → Val) (args : List Val) (hsig : GoodSig lct params ret)
    (hargs : HasTys params args) (hf : ∀ seen, HasTy ret (f seen)) :
    ∃ o, runCall K lct isMethod params ret f args = some o ∧
      ownsAll o.seen = ownsAll args ∧
      (∀ ob ∈ o.after, ob ≠ none ∧ objOwns ob = []) ∧ o.after.length = args.length ∧
      o.cppReleases = [] ∧
      o.rustDrops = originals ret (f o.seen) := by
  obtain ⟨o, h, h1, h2, h3, h4, h5⟩ :=
    run_call K lct isMethod params ret f args hsig.1 hsig.2 hargs (hf _)
  refine ⟨o, h, ?_, ?_, by simp [h5], h4, by rw [h3, h1]⟩
  · rw [h1]; exact rustOfs_owns K params args hargs
  · intro ob hob
    rw [h5] at hob
    obtain ⟨v, _, rfl⟩ := List.mem_map.mp hob
    exact ⟨by simp, by simp [objOwns, moved_owns]⟩

mutual
theorem cppOf_owns_plain (K : Convs) : ∀ (t : Ty) (v : Val), HasTy t v → originals t v = [] →
    (cppOf K t v).owns = v.owns
  | .scalar _, .leaf _, _, _ => by simp [cppOf]
  | .adt _, .leaf _, _, _ => by simp [cppOf]
  | .legacyPtr c, .leaf ⟨r, w⟩, _, h => by
      cases c with
      | none => simp [cppOf]
      | some k => cases r <;> simp_all [originals, cppOf, Val.owns]
  | .legacyVal c _, .leaf ⟨r, w⟩, _, h => by
      cases c with
      | none => simp [cppOf]
      | some k => cases r <;> simp_all [originals, cppOf, Val.owns]
  | .composable _, .leaf _, _, _ => by simp [cppOf, Val.owns]
  | .tup ts, .tup vs, hv, h => by
      simp only [HasTy, originals] at h hv
      simp [cppOf, Val.owns, cppOfs_owns_plain K ts vs hv h]
  | .scalar _, .tup _, h, _ => by simp [HasTy] at h
  | .adt _, .tup _, h, _ => by simp [HasTy] at h
  | .legacyPtr _, .tup _, h, _ => by simp [HasTy] at h
  | .legacyVal _ _, .tup _, h, _ => by simp [HasTy] at h
  | .composable _, .tup _, h, _ => by simp [HasTy] at h
  | .tup _, .leaf _, h, _ => by simp [HasTy] at h
theorem cppOfs_owns_plain (K : Convs) : ∀ (ts : List Ty) (vs : List Val), HasTys ts vs →
    originalsAll ts vs = [] → ownsAll (cppOfs K ts vs) = ownsAll vs
  | [], [], _, _ => by simp [cppOfs]
  | t :: ts, v :: vs, hv, h => by
      simp only [HasTys, originalsAll, List.append_eq_nil_iff] at h hv
      simp [cppOfs, ownsAll, cppOf_owns_plain K t v hv.1 h.1, cppOfs_owns_plain K ts vs hv.2 h.2]
  | [], _ :: _, h, _ => by simp [HasTys] at h
  | _ :: _, [], h, _ => by simp [HasTys] at h
end

/-- **C79, the result.** Unless a conversion function cloned something, the caller owns exactly what
the body's result owned, and nothing is dropped anywhere on the way. -/
theorem result_moves (K : Convs) (lct isMethod : Bool) (params : List Ty) (ret : Ty)
    (f : List Val → Val) (args : List Val) (hsig : GoodSig lct params ret)
    (hargs : HasTys params args) (hf : ∀ seen, HasTy ret (f seen))
    (hn : ∀ seen, originals ret (f seen) = []) :
    ∃ o, runCall K lct isMethod params ret f args = some o ∧
      o.result.owns = (f o.seen).owns ∧ o.rustDrops = [] ∧ o.cppReleases = [] := by
  obtain ⟨o, h, h1, h2, h3, h4, _⟩ :=
    run_call K lct isMethod params ret f args hsig.1 hsig.2 hargs (hf _)
  exact ⟨o, h, by rw [h2, h1]; exact cppOf_owns_plain K ret _ (hf _) (hn _), by rw [h3, hn], h4⟩

/-! ## The hypotheses are needed -/

/-- A tuple *parameter* containing a buffer-encoded element cannot be delivered by the generated
code, whatever the codec and the element: the array of pointers holds the address of the buffer itself
while the thunk expects the address of a pointer to it.  Only `format_type.rs:426–440`, which refuses
such tuples, keeps this from happening. -/
theorem composable_in_tuple_confused (K : Convs) (k : Nat) (l : Leaf) (f : List Val → Val) :
    runCall K false false [.tup [.composable k]] (.scalar false) f [.tup [.leaf l]] = none := by
  rfl

/-- As a *result* the same tuple works. -/
theorem composable_in_tuple_result (K : Convs) (k : Nat) (l : Leaf) :
    ∃ o, runCall K false false [] (.tup [.composable k]) (fun _ => .tup [.leaf l]) [] = some o ∧
      o.result = .tup [.leaf { l with val := K.cDec k (K.rEnc k l.val) }] := by
  obtain ⟨o, h, _, h2⟩ := call_delivers K false false [] (.tup [.composable k])
    (fun _ => .tup [.leaf l]) [] ⟨by simp, by simp⟩ (by simp [HasTys])
    (by intro _; simp [HasTy, HasTys])
  exact ⟨o, h, by rw [h2]; simp [cppOf, cppOfs]⟩

/-- A by-value type with drop glue (a `repr(transparent)` wrapper with a `Drop` implementation) is
owned twice: the body owns it, and the C++ parameter releases it as well. -/
theorem droppable_by_value_released_twice (K : Convs) (r w : Nat) (f : List Val → Val) :
    ∃ o, runCall K false false [.scalar true] (.scalar false) f [.leaf ⟨some r, w⟩] = some o ∧
      ownsAll o.seen = [r] ∧ o.cppReleases = [r] :=
  ⟨⟨[.leaf ⟨some r, w⟩], f [.leaf ⟨some r, w⟩], [], [r], [some (.val (.leaf ⟨some r, w⟩))]⟩,
    rfl, rfl, rfl⟩

/-! ## A concrete call -/

/-- Some conversions. -/
def demoK : Convs :=
  ⟨fun k n => n + k, fun k n => n - k, fun r => r + 100, fun k n => n + k + 1, fun k n => n - k - 1,
   fun _ n => n + 2, fun _ n => n - 2⟩

/-- A method taking an owning `self`, a nested tuple with owned, bridged and unit elements, and an
`Option`-like argument; it returns a nested tuple. -/
def demoParams : List Ty :=
  [.adt true,
   .tup [.scalar false, .tup [.adt true, .legacyPtr none, .tup []], .legacyVal (some 3) true],
   .composable 4]

def demoRet : Ty := .tup [.adt true, .composable 3, .tup [.scalar false, .legacyVal (some 2) true]]

def demoArgs : List Val :=
  [.leaf ⟨some 1, 10⟩,
   .tup [.leaf ⟨none, 5⟩, .tup [.leaf ⟨some 2, 11⟩, .leaf ⟨none, 77⟩, .tup []], .leaf ⟨some 3, 12⟩],
   .leaf ⟨some 4, 13⟩]

def demoBody : List Val → Val := fun _ =>
  .tup [.leaf ⟨some 20, 3⟩, .leaf ⟨some 21, 4⟩, .tup [.leaf ⟨none, 5⟩, .leaf ⟨some 22, 6⟩]]

/-- The signature and the arguments meet the hypotheses. -/
theorem demo_good : GoodSig false demoParams demoRet ∧ HasTys demoParams demoArgs ∧
    ∀ seen, HasTy demoRet (demoBody seen) := by
  refine ⟨⟨?_, by simp⟩, ?_, ?_⟩
  · intro t ht
    simp only [demoParams, List.mem_cons, List.not_mem_nil, or_false] at ht
    rcases ht with rfl | rfl | rfl <;>
      simp [ScalarsTrivial, ScalarsTrivialAll, TuplesOk, TuplesOkAll]
  · simp [demoParams, demoArgs, HasTys, HasTy]
  · intro _; simp [demoRet, demoBody, HasTy, HasTys]

/-- What the call does, computed. -/
theorem demo_call : (runCall demoK false true demoParams demoRet demoBody demoArgs).map
      (fun o => (Val.eqbs o.seen
        [.leaf ⟨some 1, 10⟩,
         .tup [.leaf ⟨none, 5⟩, .tup [.leaf ⟨some 2, 11⟩, .leaf ⟨none, 77⟩, .tup []],
               .leaf ⟨some 3, 15⟩],
         .leaf ⟨some 4, 13⟩],
       Val.eqb o.result
        (.tup [.leaf ⟨some 20, 3⟩, .leaf ⟨some 21, 4⟩, .tup [.leaf ⟨none, 5⟩, .leaf ⟨some 122, 4⟩]]),
       o.rustDrops, o.cppReleases))
    = some (true, true, [22], []) := by decide +kernel

end Verif.FnCall
