import Verif.RsTypes.Spec

/-
Specification vocabulary for the spellings of Rust types in generated Rust code (C165): tokens, how the Rust
compiler reads a type, and types up to lifetimes.
-/

namespace Verif.RsTypes

/-- What a path in a Rust type names. -/
inductive Item where
  | cvoid
  | adt (n : String)
  | gen (g : Gen)
  | rvref (byValue : Bool)
  | uninit
  deriving DecidableEq, Repr

/-- Tokens of Rust types; a path is one token, that stands for the item it names. -/
inductive RTok where
  | prim (p : Prim) | int (signed : Bool) (w : IntW) | bang | str | item (i : Item)
  | lpar | rpar | lbr | rbr | lt | gt | comma | semi | star | amp | arrow
  | kConst | kMut | kUnsafe | kFn | kExtern (abi : String) | life (s : String) | nat (n : Nat)
  deriving DecidableEq, Repr

/-- A list in parentheses: `(T)` is `T`, `(T,)` and all other lists are tuples. -/
def mkTuple (ts : RTys) (comma : Bool) : RTy :=
  match ts, comma with
  | .cons t .nil, false => t
  | ts, _ => .tuple ts

mutual
/-- A type and what follows it (`fuel`: nesting). -/
def readR : Nat → List RTok → Option (RTy × List RTok)
  | 0, _ => none
  | f + 1, ts =>
      match ts with
      | .prim p :: r => some (.prim p, r)
      | .int s w :: r => some (.int s w, r)
      | .bang :: r => some (.never, r)
      | .str :: r => some (.str, r)
      | .item .cvoid :: r => some (.cvoid, r)
      | .item (.adt n) :: r => some (.adt n, r)
      | .item (.gen g) :: .lt :: r =>
          match readElems .gt f r with
          | some ((ts, _), r') => some (.gen g ts, r')
          | none => none
      | .item (.rvref b) :: .lt :: .life s :: .comma :: r =>
          match readR f r with
          | some (t, .gt :: r') => some (.rvref b (.named s) t, r')
          | _ => none
      | .item .uninit :: .lt :: r =>
          match readR f r with
          | some (t, .gt :: r') => some (.maybeUninit t, r')
          | _ => none
      | .lpar :: r =>
          match readElems .rpar f r with
          | some ((ts, c), r') => some (mkTuple ts c, r')
          | none => none
      | .lbr :: r =>
          match readR f r with
          | some (t, .semi :: .nat n :: .rbr :: r') => some (.array t n, r')
          | some (t, .rbr :: r') => some (.slice t, r')
          | _ => none
      | .star :: .kConst :: r => (readR f r).map fun x => (.raw false x.1, x.2)
      | .star :: .kMut :: r => (readR f r).map fun x => (.raw true x.1, x.2)
      | .amp :: .life s :: .kMut :: r => (readR f r).map fun x => (.ref (.named s) true x.1, x.2)
      | .amp :: .life s :: r => (readR f r).map fun x => (.ref (.named s) false x.1, x.2)
      | .kUnsafe :: .kExtern abi :: .kFn :: .lpar :: r => readFn f true abi r
      | .kUnsafe :: .kFn :: .lpar :: r => readFn f true "Rust" r
      | .kExtern abi :: .kFn :: .lpar :: r => readFn f false abi r
      | .kFn :: .lpar :: r => readFn f false "Rust" r
      | _ => none
/-- The rest of a function pointer, after `fn(`; without `->` the result is the unit type. -/
def readFn : Nat → Bool → String → List RTok → Option (RTy × List RTok)
  | 0, _, _, _ => none
  | f + 1, u, abi, ts =>
      match readElems .rpar f ts with
      | some ((ps, _), .arrow :: r) => (readR f r).map fun x => (.fn false u abi false x.1 ps, x.2)
      | some ((ps, _), r) => some (.fn false u abi false (.tuple .nil) ps, r)
      | none => none
/-- Types with commas up to `close`, perhaps with a comma after the last one. -/
def readElems (close : RTok) : Nat → List RTok → Option ((RTys × Bool) × List RTok)
  | 0, _ => none
  | f + 1, ts =>
      match ts with
      | [] => none
      | t :: r =>
          if t = close then some ((.nil, true), r)
          else
            match readR f (t :: r) with
            | some (x, .comma :: r') => (readElems close f r').map fun y => ((.cons x y.1.1, y.1.2), y.2)
            | some (x, c :: r') => if c = close then some ((.cons x .nil, false), r') else none
            | _ => none
end

/-- The type that a token list denotes. -/
def rsTypeOf (ts : List RTok) : Option RTy :=
  match readR (2 * ts.length + 2) ts with
  | some (t, []) => some t
  | _ => none

mutual
/-- A type without its lifetimes. -/
def erase : RTy → RTy
  | .tuple ts => .tuple (erases ts)
  | .array t n => .array (erase t) n
  | .gen g ts => .gen g (erases ts)
  | .rvref b _ t => .rvref b .none (erase t)
  | .maybeUninit t => .maybeUninit (erase t)
  | .slice t => .slice (erase t)
  | .raw m t => .raw m (erase t)
  | .ref _ m t => .ref .none m (erase t)
  | .fn g u abi v r ps => .fn g u abi v (erase r) (erases ps)
  | t => t
def erases : RTys → RTys
  | .nil => .nil
  | .cons t ts => .cons (erase t) (erases ts)
end

/-- All lifetimes are written. -/
def writtenNode : RTy → Prop
  | .rvref _ l _ => ∃ s, l = .named s
  | .ref l _ _ => ∃ s, l = .named s
  | _ => True

/-- All lifetimes are `'static`. -/
def staticNode : RTy → Prop
  | .rvref _ l _ => l = .named "static"
  | .ref l _ _ => l = .named "static"
  | _ => True

/-- No function pointer is polymorphic. -/
def monoNode : RTy → Prop
  | .fn g .. => g = false
  | _ => True

/-- Generic types have the number of arguments that they take. -/
def kindNode : RTy → Prop
  | .gen .result ts => ∃ a b, ts = .cons a (.cons b .nil)
  | .gen _ ts => ∃ a, ts = .cons a .nil
  | _ => True

end Verif.RsTypes
