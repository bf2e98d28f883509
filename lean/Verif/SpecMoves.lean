/-
Specification for the pointer-level model (`Verif/Model/Moves.lean`): which parser objects can exist, what it means that
their pointers follow the tree, and what such an object is in the model of the parsing methods.
-/
import Verif.Model.Moves

namespace SJ.Obj

/-! ## The parser objects a program can have -/

mutual
/-- The same C++ type: class, value types, inner types; the number and order of members, but not their names or options. -/
def sameType : Parser → Parser → Bool
  | .value ty _ _, .value ty' _ _ => ty = ty'
  | .array st _ _ _ e, .array st' _ _ _ e' => st == st' && sameSlot e e'
  | .map st _ _ e, .map st' _ _ e' => st == st' && sameSlot e e'
  | .object k _ _ _ _ _ ms, .object k' _ _ _ _ _ ms' => k = k' && sameMembers ms ms'
  | .union ty _ st _ _ _ _ _ ms, .union ty' _ st' _ _ _ _ _ ms' => ty = ty' && st == st' && sameMembers ms ms'
  | _, _ => false
/-- Inner parsers held by value. (With an lvalue reference the assignment operator does not compile.) -/
def sameSlot : Slot → Slot → Bool
  | .own o, .own o' => sameType o o'
  | _, _ => false
def sameMembers : List (MInfo × Slot) → List (MInfo × Slot) → Bool
  | [], [] => true
  | (_, sl) :: ms, (_, sl') :: ms' => sameSlot sl sl' && sameMembers ms ms'
  | _, _ => false
end

mutual
/-- The same object but for what parsing and the value methods change: the flags, values and other mutable fields of
the parser and of those inside it (and the callbacks, which have setters). -/
inductive SameBut : Parser → Parser → Prop
  | value {ty c cb c' cb'} : SameBut (.value ty c cb) (.value ty c' cb')
  | array {st c cb c' cb' ptr e e'} : SameSlot e e' → SameBut (.array st c cb ptr e) (.array st c' cb' ptr e')
  | map {st c cb c' cb' e e'} : SameSlot e e' → SameBut (.map st c cb e) (.map st c' cb' e')
  | object {k err c cb c' cb' t ign ign' ms ms'} : SameMs ms ms' → SameBut (.object k err c cb t ign ms) (.object k err c' cb' t ign' ms')
  | union {ty tm st c cb c' cb' t ids ign ign' ms ms'} : SameMs ms ms' →
      SameBut (.union ty tm st c cb t ids ign ms) (.union ty tm st c' cb' t ids ign' ms')
inductive SameSlot : Slot → Slot → Prop
  | own {o o'} : SameBut o o' → SameSlot (.own o) (.own o')
  | ref {a} : SameSlot (.ref a) (.ref a)
inductive SameMs : List (MInfo × Slot) → List (MInfo × Slot) → Prop
  | nil : SameMs [] []
  | cons {i sl sl' ms ms'} : SameSlot sl sl' → SameMs ms ms' → SameMs ((i, sl) :: ms) ((i, sl') :: ms')
end

mutual
/-- The parser `o` exists at address `a` in some run of some program: it was constructed there from other parsers (moved in or
referred to) or by moving another parser, and since then it may have been assigned to and, if `u` is true, used for
parsing. In particular a parser that was moved into a `Member` or a tuple of members, and from there into an object,
is covered by `moved`. `mem` is, at each step, whatever the rest of the memory holds. -/
inductive Occurs (u : Bool) : Addr → Parser → Prop
  | value {a ty cb} : Occurs u a (newValue ty cb)
  | array {mem a st e cb} : OccursSlot u e → Occurs u a (newArray mem a st e cb)
  | map {mem a st e cb} : OccursSlot u e → Occurs u a (newMap mem a st e cb)
  | object {fmt mem a k err ms cb o} : OccursMs u ms → newObject fmt mem a k err ms cb = .ok o → Occurs u a o
  | union {fmt mem a ty tm st ms cb o} : OccursMs u ms → newUnion fmt mem a ty tm st ms cb = .ok o → Occurs u a o
  | moved {mem a b o} : Occurs u b o → Occurs u a (move mem a o)
  | assigned {mem a b o dst} : Occurs u b o → Occurs u a dst → sameType o dst = true → Occurs u a (assign mem a o dst)
  | used {a o o'} : u = true → Occurs u a o → SameBut o o' → Occurs u a o'
inductive OccursSlot (u : Bool) : Slot → Prop
  | own {a o} : Occurs u a o → OccursSlot u (.own o)
  | ref {a} : OccursSlot u (.ref a)
inductive OccursMs (u : Bool) : List (MInfo × Slot) → Prop
  | nil : OccursMs u []
  | cons {i sl ms} : OccursSlot u sl → OccursMs u ms → OccursMs u ((i, sl) :: ms)
end

/-! ## Reading the tree -/

/-- The inner parser at a step. -/
def Parser.slot : Parser → Step → Option Slot
  | .array _ _ _ _ e, .elem => some e
  | .map _ _ _ e, .elem => some e
  | .object _ _ _ _ _ _ ms, .mem n => ms[n]?.map (·.2)
  | .union _ _ _ _ _ _ _ _ ms, .mem n => ms[n]?.map (·.2)
  | _, _ => none

def Parser.members : Parser → List (MInfo × Slot)
  | .object _ _ _ _ _ _ ms => ms
  | .union _ _ _ _ _ _ _ _ ms => ms
  | _ => []

/-- The parser held (by value) at a place inside `o`, steps from the outside in. -/
def Parser.sub (o : Parser) : List Step → Option Parser
  | [] => some o
  | st :: q =>
    match o.slot st with
    | some (.own o') => o'.sub q
    | _ => none

/-- The address of the place reached from `a` by steps from the outside in. -/
def Addr.down (a : Addr) : List Step → Addr
  | [] => a
  | st :: q => (a.step st).down q

/-- The index of the first member with the given name. -/
def firstNamed (y : Scalar) (n : Nat) : List (MInfo × Slot) → Option Nat
  | [] => none
  | (i, _) :: ms => if i.name.cppEq y then some n else firstNamed y (n + 1) ms

/-- Where the pointers of the parser `o` at `a` have to point, whatever the rest of the memory holds: the element pointer of an
array to the array's own element parser (or the one it was given by reference); an object or union resolves a name to
its own member with this name, and a name no member has to nothing; its table of all members lists each of its
members once. -/
def Follows (mem : Names) (a : Addr) (o : Parser) : Prop :=
  match o with
  | .value _ _ _ => True
  | .map _ _ _ _ => True
  | .array _ _ _ ptr e => ptr = some (e.addr (a.step .elem))
  | .object _ _ _ _ t _ ms => FollowsKv mem a t ms
  | .union _ _ _ _ _ t _ _ ms => FollowsKv mem a t ms
where
  FollowsKv (mem : Names) (a : Addr) (t : Tables) (ms : List (MInfo × Slot)) : Prop :=
    (∀ y, t.map.find (namesAt mem a ms) y =
      (firstNamed y 0 ms).bind fun n => ms[n]?.map fun x => x.2.addr (a.step (.mem n))) ∧
    t.map.map (·.2) = (ms.mapIdx fun n x => x.2.addr (a.step (.mem n))) ∧
    t.arr = (ms.mapIdx fun n x => some (x.2.addr (a.step (.mem n))))

/-- The members of a union are different parsers. (Two members may be given the same parser by reference.) -/
def Distinct (a : Addr) (ms : List (MInfo × Slot)) : Prop :=
  ∀ (m n : Nat) x y, ms[m]? = some x → ms[n]? = some y → x.2.addr (a.step (.mem m)) = y.2.addr (a.step (.mem n)) → m = n

/-! ## The object in the model of the parsing methods -/

mutual
/-- The parser as a tree; `ρ` gives the trees of the parsers referred to. -/
def Parser.shape (ρ : Addr → Shape) : Parser → Shape
  | .value ty _ _ => .value ty
  | .array st _ _ _ e => .array st (e.shape ρ)
  | .map st _ _ e => .map st (e.shape ρ)
  | .object k err _ _ _ _ ms => .object k err (shapeMs ρ ms)
  | .union ty tm st _ _ _ _ _ ms => .union ty tm st (shapeMs ρ ms)
def Slot.shape (ρ : Addr → Shape) : Slot → Shape
  | .own o => o.shape ρ
  | .ref a => ρ a
def shapeMs (ρ : Addr → Shape) : List (MInfo × Slot) → List (MInfo × Shape)
  | [] => []
  | (i, sl) :: ms => (i, sl.shape ρ) :: shapeMs ρ ms
end

/-- The mutable fields of the parser itself. -/
def Parser.cell : Parser → Cell
  | .value _ c _ => c
  | .array _ c _ _ _ => c
  | .map _ c _ _ => c
  | .object _ _ c _ _ _ _ => c
  | .union _ _ _ c _ _ _ _ _ => c

/-- The mutable fields that the class of the parser has, except the key of a map that is being read. -/
def Parser.fields : Parser → Cell
  | .value _ c _ => { disp := c.disp, set := c.set, empty := c.empty, val := c.val }
  | .array st c _ _ _ => { disp := c.disp, set := c.set, empty := c.empty, started := c.started, val := if st then c.val else .init }
  | .map st c _ _ => { disp := c.disp, set := c.set, empty := c.empty, val := if st then c.val else .init }
  | .object k _ c _ _ _ _ => { disp := c.disp, set := c.set, empty := c.empty, val := if k = .plain then .init else c.val }
  | .union _ _ st c _ _ _ _ _ =>
    { disp := c.disp, set := c.set, empty := c.empty, curId := c.curId, val := if st then c.val else .init }

/-- The callbacks of the parser itself. -/
def Parser.cbs : Parser → Cbs
  | .value _ _ cb => cb
  | .array _ _ cb _ _ => cb
  | .map _ _ cb _ => cb
  | .object _ _ _ cb _ _ _ => cb
  | .union _ _ _ _ cb _ _ _ _ => cb

/-- The mutable fields of the ignore parser inside it. -/
def Parser.ignCell : Parser → Cell
  | .object _ _ _ _ _ ign _ => ign
  | .union _ _ _ _ _ _ _ ign _ => ign
  | _ => {}

/-- The fields of the ignore parser that its class has. -/
def Parser.ignFields (o : Parser) : Cell :=
  { disp := o.ignCell.disp, set := o.ignCell.set, empty := o.ignCell.empty, struct := o.ignCell.struct }

/-- Everything a parser object consists of besides pointers and inner parsers: its class and options, member names and defaults,
callbacks, and the state. -/
structure Content where
  shape : Shape
  names : List MInfo
  fields : Cell
  ign : Cell
  cbs : Cbs

def Parser.content (ρ : Addr → Shape) (o : Parser) : Content :=
  ⟨o.shape ρ, o.members.map (·.1), o.fields, o.ignFields, o.cbs⟩

/-- The mutable fields of all parsers of the tree, by their steps from the outside in; `ρ` gives those of the parsers referred to. -/
def Parser.cells (ρ : Addr → List Step → Cell) (o : Parser) : List Step → Cell
  | [] => o.cell
  | [.ign] => o.ignCell
  | st :: q =>
    match o.slot st with
    | some (.own o') => o'.cells ρ q
    | some (.ref a) => ρ a q
    | none => {}

/-- The heap the parser is. -/
def Parser.heap (ρ : Addr → List Step → Cell) (o : Parser) : Heap := fun p => o.cells ρ p.reverse

end SJ.Obj
