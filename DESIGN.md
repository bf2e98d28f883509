# Formal model of dhurum/sjparser in Lean 4 — design

## 1. What is modelled

All of `library/sjparser` that has run-time behaviour, as an executable state machine:

* `Verif/Model/Basic.lean` – scalars, JSON tokens, stored values, parser shapes (the tree of parser
  objects a user composes), heap cells (the fields of a parser object), callbacks, the result monad.
* `Verif/Model/Parsers.lean` – every virtual method of every parser class, the Dispatcher,
  transliterated function by function with the line numbers of the source.
* `Verif/Model/Api.lean` – `get`, `pop`, `isSet`, `isEmpty`, `currentMemberId`, `get<n>`, `pop<n>`,
  construction (`KeyValueParser` constructor) and move re-registration.
* `Verif/Model/Moves.lean` – the parser objects with the pointers they hold into themselves: constructors, move constructors,
  move assignments of every class. It justifies identifying a parser by its path (`C33_pointers`, `C33_initial`).
* `Verif/Model/Alloc.lean` – the same with a YAJL handle that may be null because `yajl_alloc` failed.
* `Verif/Model/Yajl.lean` – `YajlParser` and `ParsingError`. YAJL itself (not part of the repository)
  is a *parameter*: a byte-driven machine emitting tokens. What is assumed of it is written there as
  explicit hypotheses of the theorems that need it.

A parser object is identified by its path from the root (list of steps, innermost first). The heap maps
paths to cells. The stack of the Dispatcher is a list of paths, top first. `this->_dispatcher` is a
Boolean (null or not): there is one dispatcher.

Outcomes are `ok`, `throw` (C++ exception, `std::exception` with text or other), `ub` (undefined
behaviour, e.g. null dispatcher dereference) and `fuel` (the model's recursion bound was hit; proved
unreachable, which is the termination claim C28).

Callbacks are arbitrary functions of the complete history of callback invocations and of their
argument (the value, or a snapshot of everything observable through the parser reference they get). They
return accept / reject / throw std::exception / throw something else, may pop values out of the
parsers they can reach and (SCustomObject) may assign the stored value. `setFinishCallback()` and `setElementCallback()` replace the stored
function: in the histories (`History`, `Used`, `Survived`, …) every step may have other callbacks `E`.

## 2. Specification

`Verif/Spec.lean` contains, independently of the model: JSON trees, their token sequences `events`,
and the pure recursive function `denote` giving the value or the error a parser shape assigns to a JSON tree,
with neither stack, nor heap, nor tokens. The main theorem is a refinement: running the
state machine on `events j` (from any "ready" state, in any context of the stack) does what the
recursive evaluation says. Most properties are corollaries.

## 3. Per-property plan

The main proof is a refinement in three steps.

1. `Proofs/Fuel`, `Equations`: the fuel of the model's mutual recursion never runs out (C28); fuel-free equations.
2. `Proofs/Sim`: for every JSON tree `j`, running the machine on `events j` in any context of the stack does what a
   recursive evaluator over the same heap does (`Proofs/Eval`), by induction on `j`.
3. `Proofs/Denote`, `Adequacy`, `Main`: the evaluator does what the heap-free specification `denote`/`denoteT` (`Spec`,
   `SpecTrace`) says, by induction on `j`.

Beside it there are invariants of the machine over *arbitrary* token sequences and histories, including failed parses and
restarts: `Control` (linked stack, dispatcher pointers), `Typing` (stored values), `Open`/`Tidy` (members and elements of parsers
that are not on the stack), `Calls` (who may be called back), `Session`/`Split` (YajlParser).

| Property | Modelled | Proof |
|---|---|---|
| C01, C35 | `on` of every class for every token | case analysis over token and class, for an arbitrary state |
| C02 | `on(null)`, `Dispatcher::popParser`, `childParsed` of every parent | as above + `complete`; parents by class |
| C03, C12, C13, C31 | `finish` of the three object parsers; `childParsed`; member lookup | one-token theorems by induction over the member list; document theorems from the refinement + lemmas on `denFields` |
| C04, C05, C06 | `KeyValueParser::onMember`, `Ignore` | one-token theorem; C06 by induction over the JSON value; C05 by both |
| C07 | `endParsing` of object-like parsers | one-token and document theorem |
| C08 | the object parsers, maps, unions, ignored values | permutation lemma on `denFields` (`C08_order`); in depth: an inductive relation `Reordered` (SpecOrder.lean: swaps of neighbouring fields at any depth), each step of which preserves `okVal` and `denote` (Proofs/Order.lean) |
| C09, C10, C11 | `Array`, `SArray`, `Map`, `SMap` | induction over elements and fields of the specification, through the refinement |
| C14, C15, C16 | `Union`, `SUnion`, both modes | one-token theorems; document theorems from the refinement; comparison of doubles by bits = comparison of numbers (`SpecDouble`, `Proofs/Double`) |
| C17, C18 | `get`, `pop`, `get<n>`, `pop<n>` | case analysis; induction over call sequences |
| C19, C36 | all stored values, callbacks popping anything | invariant `Proofs/Typing` over arbitrary token sequences, restarts, user pops |
| C20 | callback log | refinement with trace (`SpecCalls.ends`), also for popping and rejecting callbacks |
| C21 | callback verdicts | invariant over arbitrary token sequences |
| C22, C25, C26, C27, C37, C38, C39 | `YajlParser`, over an arbitrary byte-driven YAJL machine | induction over bytes and chunks; invariants over API call histories |
| C23, C24 | `YajlParser::resetDispatcher`, `Dispatcher::reset` | invariant `Ready` kept by histories; refinement from every ready state; necessity of the condition (`C23_exactly_partial`): a way of tokens to every parser of the tree (`Proofs/Access`), by induction on the path |
| C28 | the recursion pop / childParsed / endParsing / mapEnd | measure on stack length; induction |
| C29, C30 | `_dispatcher` pointers; the stack | invariant `Ctl` over histories |
| C32 | `KeyValueParser` constructor | induction over the member list; names as in C14 |
| C33 | constructors, move constructors and move assignments of all classes, with the pointers and `string_view`s they set (`Model/Moves`) | invariant `Linked` over all parser objects that can occur (`SpecMoves.Occurs`), by mutual induction over the tree (`Proofs/Moves`) |
| C34 | object-like parsers while on the stack | invariant over histories |
| C40 | the whole tree, with the mishandled nulls | a mishandled null puts the machine ahead of the document (`Proofs/Lost`, invariant `Sync` with a grammar automaton beside the machine); from there no continuation is accepted (`Proofs/Doom`, `Acts`); without one the refinement holds (`Proofs/Track`) |
| C41 | dispatcher on an empty stack, `finish()` | direct: with nothing on the stack every token throws and changes nothing; so no proper initial part of an accepted sequence can be complete |
| C42 | storage parsers of any nesting | `SpecRound.toJson` writes a value; induction over the parser tree shows that `denote` of it is the value (`Proofs/Round`), then the refinement theorem; values read are typed (C36) and have ordered maps |
| C43 | one token, whole fields; all histories | the stack is nested (C30), each parser's handler touches only itself, parsers inside it and the chain of parsers it pops (`Proofs/Touch`); whole fields by the simulation theorem |
| C44 | all parsers, two states with different histories | lockstep: the machine and a new one run the same tokens; they agree on every parser that was reset since (`Live`), the others differ but are reset before anything is shown of them (`Proofs/Alike`, `AlikeStep`, `AlikeRun`); documents outside the defect classes never meet the excluded situations (`Proofs/Guard`) |
| C45 | all parsers, first part of a document's tokens | `timed` (`SpecTimed`) is `ends` with the position of the closing token added; induction over the document that follows a cut into it (`Proofs/Timed`: `cut_val`, `cut_fields`, `cut_elems`), the complete parts by C20's simulation; text level by `parseAll_run` |
| C46 | the two parsers side by side, all methods | `Relaxes` (`SpecRelax`) relates the trees; lockstep by induction over the recursion bound and the tree: equal results unless the strict one throws a `Complaint` (`Proofs/Relax`) |
| C47 | the whole parser, `parse`, `finish` | `Conforms` (`SpecConform`) is an inductive definition over document and tree; it agrees with the success of `denote` (`Proofs/Conform`, induction over the document), which the model refines (C39, C40); `NullsFine` conforming documents are outside the defect classes |
| C48 | the whole parser, `parse`, `finish` | `Extends` (`SpecGrow`) relates the two trees, `GrownV`/`GrownD` the values and the states; by induction over the document `denote` of the grown tree succeeds and gives a grown result (`Proofs/Grow`), and the model refines `denote` (C39, C40). `C48_needs_refusal`: false for objects that ignore unknown members |
| C49 | the whole parser with callbacks that have effects, `parse`, `finish` | `denoteA` (`SpecActive`): `denote` in a monad of calls, exceptions and effects (`popAt`, `D.assign`); refinement by induction over the document (`Proofs/Active`, the analogue of `Proofs/Adequacy`), then consequences (`Proofs/ActiveFacts`: the finish callback comes last; with observers it is `denoteT`). Callbacks are `Handlers`: functions of the earlier calls and of what the parser holds, not of e.g. `isEmpty()` or of the members of an unset object |
| C50 | the whole parser with two sets of callbacks | simulation (`Proofs/Watch`) between the runs with the two sets, over every method; `AddsWatchers`, `SameReports`, `runParts` in `SpecWatch` |
| C51 | `resetYajlHandle` with failing `yajl_alloc` (`Model/Alloc`) | invariant over histories (`Lived`): a null handle is only there while a reset is due; equality of the outcomes |
| C52 | `isEmpty`, `setNotEmpty`, `reset`, `endParsing` | the value each parser got last, computed from the document alone (`SpecEmpty`); induction on the document (`Leaves`); invariant "set implies not empty" over all histories (`Filled`) |
| C53 | `parse`, `finish` and the whole parser, on bytes | the grammar of JSON texts (`SpecText`) is a relation between trees and bytes; what is assumed of YAJL (`Yajl.ReadsJson`, `Yajl.OnlyJson`) is stated with it; C39, C40, C42, C47 are then statements about bytes. A byte-by-byte reader (`Reader.lean`, not code of the repository) is shown to satisfy both assumptions (`Proofs/Reader`, `Proofs/ReaderOnly`: invariant about the bytes read so far), from which also follows that the grammar is unambiguous. YAJL itself is laxer than `OnlyJson` in one respect known to me: it replaces half of a surrogate pair by `?`; the theorems with `OnlyJson` are about underlying parsers that do not |
| C54 | the methods of all parsers, the dispatcher, `YajlParser` with an allocation counter (`Model/Memory`) | each method with a counter is related to the one without (`Costs`: it makes a certain number of allocations; with enough memory both are equal, otherwise it stops, and the log of callbacks is an initial part); an invariant of the heap (`Fitting`) holds at every point where an allocation can fail; it is all that C23 needs; values after a failure: the invariant of C34/C36 at every allocation (`Oom`, `Proofs/Short`) |
| C55 | the methods of all parsers, the dispatcher, `YajlParser` over objects that may stand at several places (`Model/Shared`); callbacks see, pop and reset everything | the control invariant of C28-C30 (`Ctl`) over places instead of objects: `setDispatcher` and `reset` are shown to respect it for any consistent assignment of objects (`Places`); callbacks and data methods never touch the control fields (`Tame`); bounded recursion by the height of the stack (`chain`); with one object per place it is literally the model of the other claims (`C55_unshared`, `C55_own_objects`); a simulation between two namings of the objects (`Proofs/Rename`) shows that only the places that share an object matter (`C55_names`) |
| C56 | all parsers, any number of documents | `SpecSize`: sizes of values and documents, `cap`/`capacity` computed from the tree. Invariant over histories: each `flat` parser's value and key within its bound (`Proofs/Size`, over the shared model of C55); the brackets an ignore parser remembers never exceed the nesting of the rest of the document (`Proofs/Wane`); sums (`Proofs/Stream`). `C56_linear` by induction over the document on `denote` (`Proofs/Linear`). `C56_needs_flat`: no bound for an `SArray`. Reserve capacity of `std::vector`/`std::deque` and YAJL's buffers are not modelled |
| C57 | as C54, with the operations of user's types in the place of the allocations (`Faults.user`) | the same relation `Costs` and the same invariants; the `catch` clauses give the texts (`UserText`); an interrupted `reset()` (`resetPart`) keeps the invariants of C34/C36 whatever part of it was done |
| C58 | all parsers, the dispatcher | `SpecOutward`: `Outwards` between two calls, by the places of their parsers. The stack is strictly nested in every history (from `Ctl`); an induction over the mutual recursion `popParser`/`childParsed`/`endParsing` carries "everything called so far is inside of what is still on the stack" (`chain_after`, `Proofs/Outward`), including the branches with an exception |
| C59 | `reset()`, `setDispatcher()` of all parsers, over shared objects | `SpecHash`: both as relations in which each loop over `_parsers_map` takes any permutation of the members. Each is a sequence of primitive updates of single objects (`resetOps`); permuted sequences give the same heap because updates of one object commute, except two of its value, which are equal since a shared object has one type (`Proofs/Hash`) |
| C60 | `SCustomObject` with active callbacks against `SAutoObject` | `SpecCustom`: `convert` applies the user's functions to a nested tuple, `customize` makes the objects `SCustomObject`s. Structural induction over the document relates `denote` of the one tree with `denoteA` of the other (`Proofs/Custom`); C39 and C49 connect both with the runs |
| C61 | `reset()` of all parsers, called by the user | `reset'` is a step of every history (`History`, `Used`, `Between`, `Feeding`, `Reading`, `Scarce`, `Streaming`, `Served`, `Survived`, ..., and of the shared ones), so that each invariant is shown to survive it; its own effect is `resetH_clear` (`Proofs/Alike`): exactly the cells reached without passing through a map are reset |
| C62 | `Array`, `SArray`, `Map`, `SMap`, `Union`, `SUnion` on the same input | `SpecDeliver`: `delivered`, `deliveredPairs` read the log. `Proofs/Deliver`: all calls made for a value are at or below its parser (`AtOrUnder`) and its own finish callback is called once if it is set (`OwnCall`); induction over elements and fields compares `denElemsT`/`denFieldsT` of the two parsers; C39 connects them with the runs |
| C63 | `lookup` by name, member numbers, `MemberChecker`s, `ValueSetter`s | `SpecDeclared`: `ObjectsAgree`, `UnionsAgree` compare two parsers through their public methods. `Proofs/Declared`: induction over the fields with the invariant that the members zipped with what they hold are a permutation (`SameSlots`); C39 connects `denote` with the runs |
| C64 | Completable trees (`SpecAhead.lean`); `Conforms` (C47) is what is accepted | Induction over the document and the cut: completed values conform (adequacy + C47), open ones are finished with a sample value; missing members are appended; exactness both ways; dead ends of embedded unions as witness |
| C65 | A relation between scalars, lifted to tokens, values, parser states, callbacks and outcomes (`SpecThrough.lean`) | Relational (two-run) proof through every function of the model, by induction over the recursion bound and the token list; needs that related scalars have the same type and select the same alternatives |
| C66 | Two sets of callbacks that differ in what those of streamed elements take (`SpecTake.lean`: `SameButTaken`, `taken`, `takenPairs`) | On the description with acting callbacks (`denoteA`, C49): what an element holds after its callback is dropped by Array and Map; induction over the document (`Proofs/Take.lean`). With C62's agreement of streaming and storing for the last part |
| C67 | Documents that differ only in ignored fields (`SpecSkip.lean`: mutual inductive relation `SameButSkipped` along the tree) | The description with acting callbacks (`denoteA`, C49) is equal for both, by mutual induction over the relation (`Proofs/Skip.lean`); then C49 for both runs |
| C68 | Documents that differ only in nulls of members and of array elements (`SpecNulls.lean`: mutual inductive relation `SameButNulls` along the tree) | As C67; the induction over the fields carries that members that had no field yet are unset (`Proofs/Nulls.lean`) |
| C69 | The mutually recursive methods once more with a counter (`Model/Steps.lean`); `SpecSteps.lean`: `chain` | Erasure by induction over the recursion bound and the tree. Amortised analysis: a parser on the stack is worth 14 steps; `Paid c m` (steps + worth of the stack after <= worth of the stack before + c) is compositional, so induction over the recursion bound gives constants for the four methods, induction over the tree those of `on` (`Proofs/Steps.lean`) |
| C70 | `SpecRepeat.lean`: `FewerRepeats`, a relation of documents along the parser tree | Mutual induction over the relation: what a member held is overwritten by its later field (`denFields_again`), inserting an existing key into a sorted map changes nothing (`mapInsert_there`); with C02's refinement (`parse_denote`) this becomes a statement on runs (`Proofs/Repeat.lean`) |
| C71 | `SpecInside.lean`: the callbacks of a subtree as those of a tree of its own | The description with acting callbacks (`denoteA`, C49) at a place `q ++ p` mirrors that at `q` with the callbacks moved: a relation of effects (`Mirrors`) closed under sequencing, by mutual induction over the document (`Proofs/Inside.lean`); `parse_atA` connects it with the runs at any place |
| C72 | `SpecSchema.lean`: `SameSchema`, an inductive relation of trees with a bijection of the members of each object and union | Conformance (C47) is invariant under `SameSchema`, by induction over the derivation of conformance (`Proofs/Schema.lean`); C47 connects it with the runs |

MANIFEST.json lists the theorems of each property. Every file in `Verif/Props` ends with examples in which the theorems are applied to
concrete parsers and documents (`Verif/Demo.lean`), so that their hypotheses are shown to be met.

### Vocabulary of the theorem statements

* `Expecting R s p sh` (`SpecState`): in `s` the parser at path `p` (of shape `sh`) is the current one and a value of it is expected.
* `Completes E R s p j s1`: feeding the tokens of `j` (and anything after it) from `s` is the same as completing `p` in `s1` and
  going on; `Fails E R s j e`: feeding the tokens of `j` fails with message `e`.
* `Holds h p d`: what is observable through the API at `p` is the specification's `d`.
* `Passive E`: every callback accepts, pops nothing, assigns nothing.
* `okVal sh j`: `j` is outside the defect classes of section 5 for parser `sh`.
* `Blind R E` (`SpecAlike`): the callbacks do not look at the element parser a map shows; `SameRun`, `SameReading`: equal outcomes, callbacks and
  observable contents; `Hazard`: the token and state for which an array of composite parsers behaves differently after its first element.
* `timed R [] 0 j` (`SpecTimed`): the callbacks a document calls with the positions of the tokens they are due at; `dueBefore n`, `dueAt n`: those before, at position `n`.
* `History`, `Feeding`, `Used`, `Between`, `Served`, `Survived` (`SpecHistory`, `SpecTyped`, `SpecSession`): inductively, everything a user can do, including `pop()`, `reset()` and other callbacks at any time.

## 4. Trusted base

* Lean's kernel. Every theorem depends on at most the axioms `propext`, `Classical.choice`, `Quot.sound` (checked with
  `#print axioms` by vcheck); no axioms were added; examples use `decide +kernel`, which is a kernel computation.
* The reading of the C++ source into `Verif/Model` (no code is run). Each definition cites its lines.
* Modelled: `library/sjparser/{value,array,s_array,map,s_map,object,s_custom_object,s_auto_object,union,s_union,member,options,type_holder,
  parser,yajl_parser,parsing_error}` and `library/sjparser/internals/{token_parser,dispatcher,ignore,key_value_parser,array_parser,default_value,traits}` - all functions
  with run-time behaviour: token handlers, `childParsed`, `endParsing`, `finish`, `reset`, `setDispatcher`, accessors, construction, moves.
* YAJL is a parameter of the model: a machine that is fed one byte at a time and reports tokens, plus
  `yajl_complete_parse`. Assumed of it only that it is such a machine (its output is a function of the bytes fed since
  `yajl_alloc`), that it stops when a callback cancels, and that `yajl_get_error` reads the buffer it is given.
  Nothing about JSON syntax is assumed, except as explicit hypotheses: `Yajl.Document` (these bytes are a document with these tokens) and, in C53 only,
  `Yajl.ReadsJson` and `Yajl.OnlyJson` (the documents are the JSON texts); that they can be met is a theorem (`C53_possible`).
* Failures are modelled in `Model/Memory` (while a token is handled: allocations, C54; operations of user's types, C57) and `Model/Alloc` (C51; `yajl_alloc`). A `reset()` that is interrupted by a user's type is one operation
  of which any part may have been done; a value whose assignment failed is not looked at again (its parser is unset). Not included there: failures in the user's callbacks,
  in the constructors, in `Dispatcher::reset`, inside YAJL after `yajl_alloc`, while a `ParsingError` is made, and the assignment to `_sjparser_error` in the `noexcept` method `YajlParser::on` (it would end the program).
* The same parser object used by reference in several places of the tree, and callbacks that reach parsers they were not called with, are modelled in `Model/Shared` (C55) and `Model/Moves`; `Model/Parsers`,
  which all other claims are about, assumes one object per place and callbacks that keep to their arguments (`C55_unshared` connects the two).
* Not modelled: what is
  left of the source of a move; re-entrancy (callbacks calling `parse` or `finish` of the running
  parser; `pop()` and `reset()` of any parser of the tree in a callback are modelled in `Model/Shared`, C55; a callback that installs another one is covered as one that accepts, and is not looked at, until it is installed: by C50 such calls change nothing); text of YAJL's own errors; `operator<<` for `double` (a parameter); template-time checks
  (`static_assert`), except as the well-formedness predicate `Shape.wf`; copy/move behaviour of user types (except that they may throw: C57); `int64_t` bounds
  (an integer token carries any integer: arithmetic is never done on it).

### The repository's own tests, run on the model

`Verif/Suite/*.lean` transcribes 211 of the 226 unit tests of /repo/tests/src, under their own names, and has the kernel evaluate them on the model (texts are read by
`Verif/Reader.lean` in the place of YAJL). These are tests, not proofs, and no claim rests on them; they pass on the real code, so they are evidence that the model and the code agree: every
asserted `isSet()`, `isEmpty()`, `get()`, `pop()`, `currentMemberId()`, every argument of a callback and every `sjparserError()` text. Left out: 10 tests of the aggregate `Member` (fields are what
they were initialised with, C++ types), 4 that only check that a constructor compiles, 1 with a parser class of the
test's own; and, inside of the others, the texts of `parserError()` (YAJL's), addresses and the use of copy constructors.

## 5. Defects of this version found while modelling

Each one is shown by a theorem or example that evaluates the model. They bound the domain of the document theorems (`okVal`).

1. `Ignore` does not override `on(NullT)`: a null strictly inside an ignored value ends the skipping early (`C05_nested_null`).
2. A null element of an array whose elements are composite ends the array itself if an element was parsed before
   (`C24_null_element`, `C23_null_element`).
3. `ArrayParser::_started` is not cleared by `reset()`: after an error inside an array the parser is stuck (`C23_inside_array`);
   it may even accept a scalar in the place of the array without any error (`C40_needs_no_array_open`).
4. An array of unions dereferences a null dispatcher if an element is a scalar of the union's type (`C29_union_element`).
5. A standalone union takes a bare scalar of its type as type value; null or an object as type value is mishandled
   (outside `okVal`).
6. `YajlParser::finish()` passes the pointer of the last `parse()` buffer to `yajl_get_error` (`C38_witness`).
   A `Map` does not reset its element parser: it still shows the last element of the previous document (`C44_stale_element`).
   After a `parse()` that failed to allocate the YAJL handle, `finish()` uses a null handle (`C51_finish`).
7. `get<n>()` after `pop<n>()` of a member with default returns the default, contrary to the documentation (`C17_after_pop`).
8. If two members of a union are given the same parser by reference, the union's member number is that of the last of them for both
   type values (`C33_shared_parser`).
9. A parser given by reference both to a member (or map) and to an array has a dispatcher when the array uses it: its first scalar element pops the array
   (`Shd.shared_array_witness`).
