/-
The unit tests of the repository (/repo/tests/src/*.cpp), transcribed and run on the model by the kernel. They are tests, not proofs: they pass on the real code, so they are
evidence that the model behaves as the code does. This file has the means to write them down; `Verif/Suite/*.lean` has the tests, under the names they have in the repository.

YAJL is played by `SJ.Read.reader` (Verif/Reader.lean), which knows the decimal literals that occur in the tests. What is not transcribed: the texts of `parserError()`, which
come from YAJL; assertions about C++ types, addresses and the use of copy constructors. Each file lists the tests that are left out.
-/
import Verif.Reader
import Verif.DemoYajl

namespace SJ.Suite
open SJ.Demo (sameV bytes buffer)

/-! ## Doubles -/

/-- The doubles that occur in the tests, with their IEEE-754 bits. -/
def literals : List (String × Dbl) :=
  [("1.3", ⟨0x3ff4cccccccccccd⟩), ("10.5", ⟨0x4025000000000000⟩), ("11.2", ⟨0x4026666666666666⟩), ("11.5", ⟨0x4027000000000000⟩)]

def dblOf (bs : List UInt8) : Option Dbl := (literals.find? fun x => bytes x.1 == bs).map (·.2)

def Y : Yajl := Read.reader dblOf

/-! ## Parsers -/

def bool : Shape := .value .bool
def int : Shape := .value .int
def dbl : Shape := .value .dbl
def str : Shape := .value .str

/-- `Member{name, parser}` -/
def mem (name : String) (sh : Shape) : MInfo × Shape := ({ name := .str name }, sh)
/-- `Member{name, parser}` of a union on `int64_t` -/
def memI (name : Int) (sh : Shape) : MInfo × Shape := ({ name := .int name }, sh)
/-- `Presence::Optional` -/
def opt (m : MInfo × Shape) : MInfo × Shape := ({ m.1 with optional := true }, m.2)
/-- `Presence::Optional, value` -/
def optD (m : MInfo × Shape) (v : Val) : MInfo × Shape := ({ m.1 with optional := true, dflt := some v }, m.2)

/-- `Object{std::tuple{...}}`, `SAutoObject`, `SCustomObject`: an unknown member is an error by default. -/
def obj (ms : List (MInfo × Shape)) : Shape := .object .plain true ms
def auto (ms : List (MInfo × Shape)) : Shape := .object .auto true ms
def custom (ms : List (MInfo × Shape)) : Shape := .object .custom true ms
/-- ... with `ObjectOptions{Reaction::Ignore}` -/
def ignoring : Shape → Shape
  | .object k _ ms => .object k false ms
  | sh => sh
/-- `Union{TypeHolder<T>{}, "type", ...}`, `Union{TypeHolder<T>{}, ...}`; the same for `SUnion` -/
def union (ty : ScalarTy) (ms : List (MInfo × Shape)) : Shape := .union ty "type" false ms
def embedded (ty : ScalarTy) (ms : List (MInfo × Shape)) : Shape := .union ty "" false ms
def sunion (ty : ScalarTy) (ms : List (MInfo × Shape)) : Shape := .union ty "type" true ms
def sembedded (ty : ScalarTy) (ms : List (MInfo × Shape)) : Shape := .union ty "" true ms
def array (e : Shape) : Shape := .array false e
def sarray (e : Shape) : Shape := .array true e
def map (e : Shape) : Shape := .map false e
def smap (e : Shape) : Shape := .map true e

/-- `parser<i>().parser<j>()...` -/
def at_ (ns : List Nat) : Path := (ns.map Step.mem).reverse

def b (x : Bool) : Val := .sc (.bool x)
def i (x : Int) : Val := .sc (.int x)
def s (x : String) : Val := .sc (.str x)
def d (x : String) : Val := match dblOf (bytes x) with | some y => .sc (.dbl y) | none => .init

/-! ## Callbacks -/

/-- What a callback of a test does with the parser, or the value, it is given; that it copies something into a variable of the test is seen by `Op.saw`. -/
abbrev Cb := Arg → CbOut
def yes : Cb := fun _ => {}
def no : Cb := fun _ => { verdict := .reject }
/-- `throw 10` -/
def throws10 : Cb := fun _ => { verdict := .throws .other }
/-- Calls `pop<n>()` for these members. -/
def pops (ns : List Nat) : Cb := fun _ => { pops := ns.map fun n => [Step.mem n] }

def Snap.val : Snap → Option Val
  | .node _ _ v _ _ => v
def Snap.kids : Snap → List Snap
  | .node _ _ _ _ ks => ks
def Snap.cur : Snap → Option Nat
  | .node _ _ _ c _ => c

/-- Sets the fields of the user's structure to `get<0>()`, `get<1>()`, ... -/
def build : Cb
  | .parser sn => { newVal := some (.user "struct" ((Snap.kids sn).filterMap Snap.val)) }
  | .val _ => {}

/-- The callbacks that are set: finish callbacks and element callbacks. -/
def env (fs : List (Path × Cb)) (es : List (Path × CbOut) := []) : Env :=
  { onFinish := fun p => (fs.find? fun x => x.1 = p).map fun x _ a => x.2 a
    onElement := fun p => (es.find? fun x => x.1 = p).map fun x _ _ _ => x.2
    fmtDbl := fun _ => "" }

def quiet : Env := env []

/-- A record of a callback: with a value; with a parser, of which the test read the values of the members (`none`: not set, or it does not store one); with an element. -/
inductive Saw where
  | value (p : Path) (v : Val)
  | parser (p : Path) (vs : List (Option Val))
  | alt (p : Path) (cur : Nat) (vs : List (Option Val))
  | element (p : Path) (key : String) (v : Option Val)

def sameO : Option Val → Option Val → Bool
  | some v, some w => sameV v w
  | none, none => true
  | _, _ => false

def sameOs : List (Option Val) → List (Option Val) → Bool
  | [], [] => true
  | v :: vs, w :: ws => sameO v w && sameOs vs ws
  | _, _ => false

def Saw.matches : Saw → Call → Bool
  | .value p v, .finish q (.val w) => p = q && sameV v w
  | .parser p vs, .finish q (.parser sn) => p = q && sameOs vs ((Snap.kids sn).map Snap.val)
  | .alt p n vs, .finish q (.parser sn) =>
    p = q && Snap.cur sn == some n && sameOs vs ((((Snap.kids sn)[n]?).elim [] Snap.kids).map Snap.val)
  | .element p k v, .element q k' sn => p = q && k = k' && sameO v (Snap.val sn)
  | _, _ => false

def allMatch : List Saw → List Call → Bool
  | [], [] => true
  | x :: xs, c :: cs => x.matches c && allMatch xs cs
  | _, _ => false

/-! ## Tests -/

/-- One line of a test. -/
inductive Op where
  /-- `ASSERT_NO_THROW(parser.parse(buf))`, `ASSERT_NO_THROW(parser.finish())` -/
  | parse (text : String)
  | finish
  /-- A `ParsingError` with this `sjparserError()` is thrown. -/
  | parseFails (text sj : String)
  | finishFails (sj : String)
  /-- `dispatcher->on(token)` throws `std::runtime_error`. -/
  | onFails (t : Token) (msg : String)
  | isSet (p : Path) (x : Bool)
  | isEmpty (p : Path) (x : Bool)
  | get (p : Path) (v : Val)
  | getFails (p : Path) (msg : String)
  | pop (p : Path) (v : Val)
  /-- `get<n>()`, `pop<n>()` -/
  | getN (p : Path) (n : Nat) (v : Val)
  | popN (p : Path) (n : Nat) (v : Val)
  | currentMemberId (p : Path) (n : Nat)
  /-- `setFinishCallback`, `setElementCallback` -/
  | callbacks (E : Env)
  /-- All invocations of callbacks so far. -/
  | saw (l : List Saw)

structure Running where
  E : Env
  st : PSt Y
  mem : Mem

def gives (v : Val) : Res Val → Option St
  | .ok w s => if sameV v w then some s else none
  | _ => none

def Op.run (R : Shape) (r : Running) : Op → Option Running
  | .parse t =>
    match SJ.parse Y r.E R (buffer t) (some 0) (bytes t).length r.st with
    | .ok _ st => some { r with st := st, mem := buffer t }
    | _ => none
  | .parseFails t sj =>
    match SJ.parse Y r.E R (buffer t) (some 0) (bytes t).length r.st with
    | .throw (.parsing e _) st => if e = sj then some { r with st := st, mem := buffer t } else none
    | _ => none
  | .finish =>
    match finishDoc Y r.E R r.mem r.st with
    | .ok _ st => some { r with st := st }
    | _ => none
  | .finishFails sj =>
    match finishDoc Y r.E R r.mem r.st with
    | .throw (.parsing e _) st => if e = sj then some { r with st := st } else none
    | _ => none
  | .onFails t msg =>
    match dispatch r.E R t r.st.st with
    | .throw (.std e) st => if e = msg then some { r with st := { r.st with st := st } } else none
    | _ => none
  | .isSet p x => if SJ.isSet p r.st.st = x then some r else none
  | .isEmpty p x => if SJ.isEmpty p r.st.st = x then some r else none
  | .get p v => (gives v (SJ.get p r.st.st)).map fun st => { r with st := { r.st with st := st } }
  | .getFails p msg =>
    match SJ.get p r.st.st with
    | .throw (.std e) _ => if e = msg then some r else none
    | _ => none
  | .pop p v => (gives v (popVal p r.st.st)).map fun st => { r with st := { r.st with st := st } }
  | .getN p n v => (gives v (SJ.getN p n (dfltOf R p n) r.st.st)).map fun st => { r with st := { r.st with st := st } }
  | .popN p n v => (gives v (SJ.popN p n (dfltOf R p n) r.st.st)).map fun st => { r with st := { r.st with st := st } }
  | .currentMemberId p n =>
    match SJ.currentMemberId p r.st.st with
    | .ok m _ => if m = n then some r else none
    | _ => none
  | .callbacks E => some { r with E := E }
  | .saw l => if allMatch l r.st.st.log.reverse then some r else none
where
  /-- The default value of a member. -/
  dfltOf (R : Shape) (p : Path) (n : Nat) : Option Val :=
    match R.at p with
    | some (.object _ _ ms) => (ms[n]?).bind (·.1.dflt)
    | some (.union _ _ _ ms) => (ms[n]?).bind (·.1.dflt)
    | _ => none

def runOps (R : Shape) : List Op → Running → Bool
  | [], _ => true
  | o :: os, r =>
    match o.run R r with
    | some r' => runOps R os r'
    | none => false

/-- `Parser parser{R};` with these callbacks, then the lines of the test. -/
def test (E : Env) (R : Shape) (os : List Op) : Bool := runOps R os { E := E, st := PSt.init Y R, mem := fun _ => none }

/-- The constructor throws this. -/
def constructFails (names : List Scalar) (msg : String) : Bool :=
  match construct (fun _ => "") 0 (names.map fun n => { name := n }) with
  | .error e => e = msg
  | .ok _ => false

/-- `TokenParser::checkSet` etc. -/
def unsetText : String := "Can't get value, parser is unset"

end SJ.Suite
