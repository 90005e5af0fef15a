import Verif.CcValue.Compile
import Verif.CcValue.Cells
/-
Concrete classes for C132-C136: the hypotheses of the theorems are met by classes with several
levels, arrays, bases and unions; and classes for which things go wrong.
-/
namespace Verif.CcValue.Example

/-- `class [[clang::trivial_abi]] Handle { public: Handle(const Handle&); ~Handle(); int fd; };` -/
def handle : Cls :=
  .mk { dtor := some ⟨.userProvided, .pub, false⟩, copies := [⟨true, .userProvided, .pub⟩] }
    (.scalar {} false .nil)

/-- `struct Point { int x; int y; };` -/
def point : Cls := .mk {} (.scalar {} false (.scalar {} false .nil))

/-- `struct Box : Handle { Point p; Handle h; Handle many[3]; };` -/
def box : Cls :=
  .mk { headPadding := true }
    (.obj { isBase := true } handle
      (.obj {} point (.obj {} handle (.obj { array := some 3 } handle .nil))))

/-- `union U { Point p; Handle h; ~U(); U(const U&); };` -/
def un : Cls :=
  .mk { isUnion := true, dtor := some ⟨.userProvided, .pub, false⟩,
        copies := [⟨true, .userProvided, .pub⟩] }
    (.obj {} point (.obj {} handle .nil))

theorem box_ok : box.gen.ok = true ∧ box.plain = true ∧ box.sane = true ∧ box.dtorKind = .nontrivial ∧
    box.dtorAccess = .pub ∧ box.checkByValue = true := by decide +kernel

/-- The array is destroyed last element first, the base last. -/
theorem box_drop : box.gen.drop [] =
    [.dtor [(3, 2)], .dtor [(3, 1)], .dtor [(3, 0)], .dtor [(2, 0)], .dtor [(0, 0)]] := by
  decide +kernel

theorem box_drop_is_destroy : box.gen.drop [] = box.destroy [] :=
  drop_is_destroy box [] ⟨by rw [box_ok.2.2.2.1]; simp, box_ok.2.2.2.2.1⟩ box_ok.1

/-- `clone` of the box calls the copy constructor of the box, which copies the parts in order. -/
theorem box_clone : box.gen.isClone = true ∧ box.gen.isCopy = false ∧ box.gen.clone [] =
    [.copy [(0, 0)], .copy [(2, 0)], .copy [(3, 0)], .copy [(3, 1)], .copy [(3, 2)]] := by
  decide +kernel

theorem point_copy : point.gen.isCopy = true ∧ point.plain = true ∧ point.gen.unpin = true := by
  decide +kernel

theorem union_ok : un.gen.ok = true ∧ un.plain = true ∧ un.gen.drop [] = [.dtor []] ∧
    un.gen.isClone = true ∧ un.gen.clone [] = [.copy []] := by decide +kernel

theorem handle_three : handle.ruleOfThree := by
  intro q c' h hb
  unfold handle at h
  cases h with
  | here => right; rfl
  | @sub _ _ n _ _ _ _ _ _ hg _ _ =>
    exfalso
    match n with
    | 0 => simp [Subs.get] at hg
    | n + 1 => simp [Subs.get] at hg

theorem handle_good : handle.Good :=
  ⟨by decide +kernel, ⟨by decide +kernel, by decide +kernel⟩, handle_three, by decide +kernel⟩

/-- A program: make two handles, clone the first, move things about, and drop all. -/
def ops : List Op := [.new handle, .new handle, .clone 0, .move 0, .drop 1, .drop 0, .drop 0]

theorem ops_run : ∃ w, run {} ops = some w ∧ w.vars = [] ∧
    w.released = [(2, []), (1, []), (0, [])] ∧ w.created = [(0, []), (1, []), (2, [])] := by
  refine ⟨_, rfl, ?_, ?_, ?_⟩ <;> decide +kernel

theorem ops_good : ∀ op ∈ ops, op.good := by
  intro op h
  simp only [ops, List.mem_cons, List.not_mem_nil, or_false] at h
  rcases h with rfl | rfl | rfl | rfl | rfl | rfl | rfl <;> first | exact handle_good | exact True.intro

/-! ### What goes wrong -/

/-- `class Cached { public: int x; private: mutable int cache; };` and `struct S { Cached c; };`: C++
copies both as bytes. `S` derives `Copy`, its field is not `Copy`: the Rust compiler refuses. -/
def cached : Cls :=
  .mk {} (.scalar {} false (.scalar { isMutable := true, access := .priv } false .nil))

theorem mutable_in_member_breaks_copy :
    let s := Cls.mk {} (.obj {} cached .nil)
    s.copyKind true = .trivial ∧ s.dtorKind = .trivial ∧ cached.gen.ok = true ∧
      s.gen.isCopy = true ∧ cached.gen.isCopy = false ∧ s.gen.ok = false := by
  decide +kernel

/-- The same with a member of a class that is annotated as thread safe. -/
theorem thread_safe_member_breaks_copy :
    let t := Cls.mk { threadSafe := true } (.scalar {} false .nil)
    let s := Cls.mk {} (.obj {} t .nil)
    t.gen.ok = true ∧ s.gen.isCopy = true ∧ s.gen.ok = false := by
  decide +kernel

/-- The same with a member of a class that is annotated as not `Copy`. -/
theorem annotated_member_breaks_copy :
    let t := Cls.mk { deriveCopy := .neg } (.scalar {} false .nil)
    let s := Cls.mk {} (.obj {} t .nil)
    t.gen.ok = true ∧ s.gen.isCopy = true ∧ s.gen.ok = false := by
  decide +kernel

/-- The same with a member whose copy constructor is defaulted, but private, and that has the class
as a friend. -/
theorem friend_copy_breaks_copy :
    let t := Cls.mk { copies := [⟨true, .defaulted, .priv⟩] } (.scalar {} false .nil)
    let s := Cls.mk {} (.obj { isFriend := true } t .nil)
    t.gen.ok = true ∧ s.copyKind true = .trivial ∧ s.gen.isCopy = true ∧ s.gen.ok = false := by
  decide +kernel

/-- The same with a field that is a mutable reference. -/
theorem mutable_reference_breaks_copy :
    let s := Cls.mk {} (.scalar {} true .nil)
    s.copyKind true = .trivial ∧ s.gen.isCopy = true ∧ s.gen.ok = false := by
  decide +kernel

/-- The same with a member that is copied as bytes but that has a move constructor with a body, and
so is not passed in registers, when the class itself only declares a copy constructor. -/
theorem user_move_breaks_copy :
    let t := Cls.mk { copies := [⟨true, .defaulted, .pub⟩], hasMove := true, inRegs := false }
      (.scalar {} false .nil)
    let s := Cls.mk { copies := [⟨true, .defaulted, .pub⟩], inRegs := true } (.obj {} t .nil)
    t.gen.ok = true ∧ s.copyKind true = .trivial ∧ s.gen.isCopy = true ∧ s.gen.ok = false ∧
      s.info.inRegs = true ∧ s.gen.unpin = false := by
  decide +kernel

/-- `union Storage { char bytes[16]; Handle h; Storage(); ~Storage(); };`: the array becomes an array
of `Cell`s, which Rust does not accept in a union. -/
theorem array_in_union_refused :
    let d : ClassInfo :=
      { isUnion := true, dtor := some ⟨.userProvided, .pub, false⟩
        copies := [⟨true, .deleted, .pub⟩], inRegs := false }
    let u := Cls.mk d (.scalar { array := some 16 } false (.obj {} handle .nil))
    u.destructible ∧ u.gen.ok = false := by
  refine ⟨⟨?_, ?_⟩, ?_⟩ <;> decide +kernel

/-- Two copy constructors: the first one decides. `class C { public: C(C&) = default; C(const C&); };`
is `Copy` in Rust, but C++ runs the body for every `const` source. -/
theorem first_copy_constructor_decides :
    let c := Cls.mk { copies := [⟨false, .defaulted, .pub⟩, ⟨true, .userProvided, .pub⟩] }
      (.scalar {} false .nil)
    c.gen.isCopy = true ∧ c.gen.ok = true ∧ c.gen.clone [] = [] ∧ c.copy true [] = [.copy []] ∧
      c.sane = false := by
  decide +kernel

/-- A class with a private destructor: nobody may destroy it, but Rust drops its public fields. -/
theorem private_destructor_drops_fields :
    let c := Cls.mk { dtor := some ⟨.userProvided, .priv, false⟩ } (.obj {} handle .nil)
    c.gen.ok = true ∧ c.dtorAccess = .priv ∧ c.gen.drop [] = [.dtor [(0, 0)]] ∧
      c.destroy [] = [.dtor [], .dtor [(0, 0)]] ∧ c.checkByValue = false := by
  decide +kernel

/-- A class with a destructor body and a defaulted copy constructor: against the rule of three. Rust
derives `Clone`, and a program releases the resource twice, as it would in C++. -/
def bad : Cls :=
  .mk { dtor := some ⟨.userProvided, .pub, false⟩, copies := [⟨true, .defaulted, .pub⟩] }
    (.scalar {} false .nil)

theorem bad_releases_twice : ∃ w, run {} [.new bad, .clone 0, .drop 0, .drop 0] = some w ∧
    w.released = [(0, []), (0, [])] := by
  refine ⟨_, rfl, ?_⟩
  decide +kernel

/-- A forced `Clone` on a class that owns something does the same. -/
theorem forced_clone_releases_twice :
    let d : ClassInfo :=
      { dtor := some ⟨.userProvided, .pub, false⟩
        copies := [⟨true, .userProvided, .pub⟩], deriveClone := .pos }
    let c := Cls.mk d (.scalar {} false .nil)
    c.gen.ok = true ∧ c.gen.isClone = true ∧ c.gen.clone [] = [] ∧ c.copy true [] = [.copy []] := by
  decide +kernel

/-- A mutable field of the class itself is fine: it becomes a `Cell`, and the type is `Clone`. -/
theorem mutable_field_is_fine :
    let c := Cls.mk {} (.scalar { isMutable := true } false .nil)
    c.gen.ok = true ∧ c.gen.isCopy = false ∧ c.gen.isClone = true := by
  decide +kernel

/-- `struct Holder : Base { Cached c; Point p; mutable Point last; };` where `Base` has a body in its copy constructor: everything that
is `mutable`, at two levels, is in a `Cell`, and the rest is not. -/
theorem holder_cells :
    let h := Cls.mk { headPadding := true }
      (.obj { isBase := true } handle (.obj {} cached (.obj {} point (.obj { isMutable := true } point .nil))))
    h.openMut = true ∧ h.gen.ok = true ∧
      [[(1, 0), (1, 0)], [(3, 0), (0, 0)], [(3, 0), (1, 0)]].all (fun q => h.mutAt q && h.gen.cellAt q) = true ∧
      h.gen.cellAt [(2, 0), (0, 0)] = false := by
  decide +kernel

/-- `struct D : Cached { int y; };` is `Copy`; the cache in its base is not in a `Cell`, although a `const` member function of `Cached`
writes to it through a shared reference. -/
theorem mutable_in_base_not_a_cell :
    let s := Cls.mk { headPadding := true } (.obj { isBase := true } cached (.scalar {} false .nil))
    s.gen.ok = true ∧ s.gen.isCopy = true ∧ s.mutAt [(0, 0), (1, 0)] = true ∧ s.gen.cellAt [(0, 0), (1, 0)] = false ∧
      s.openMut = false := by
  decide +kernel

/-- The same with a private member. -/
theorem mutable_in_private_not_a_cell :
    let s := Cls.mk {} (.obj { access := .priv } cached (.scalar {} false .nil))
    s.gen.ok = true ∧ s.gen.isCopy = true ∧ s.mutAt [(0, 0), (1, 0)] = true ∧ s.gen.cellAt [(0, 0), (1, 0)] = false := by
  decide +kernel

end Verif.CcValue.Example
