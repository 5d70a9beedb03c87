# Formal model of soft.go (ecore) in Lean 4

The code under study is `/repo/ecore` (a Go port of Eclipse EMF).  This document says
what is modelled, how each property of `properties.jsonl` is stated and proved, and what
has to be trusted.  It was written before the proofs and is kept current.

## 1. Method

* Every modelled Go function becomes a total, computable Lean function on explicit state.
  Its doc comment cites the file and lines and says what was simplified.
* Panics are values (`Except`/`Option`/explicit result constructors), not hidden totalisations.
  A Go operation that mutates before panicking returns the mutated state with the panic.
* Goroutines, channels and asynchronous SQL execution are state machines whose steps are
  chosen by an arbitrary scheduler (a list or relation of steps).
* Each subsystem `X` has `Verif/Model/X.lean` (the code), `Verif/Spec/X.lean` (the independent
  specification, when it is not just a line), `Verif/Proofs/X.lean` (lemmas) and
  `Verif/Props/X.lean` (the property theorems and the non-vacuity examples).
* Theorem names begin with the property id: `C01_...`.  `_partial` marks a theorem covering part of
  the claim.  `_violated` marks a proved negation: a concrete execution of the model of the real
  code on which the English property is false; these are real findings about the code.

## 2. Trusted base

* Lean 4.33.0 kernel.  Axioms used: at most `propext`, `Classical.choice`, `Quot.sound`
  (checked by `#print axioms`, see section 6).  No axioms of ours, no `sorry`, no `native_decide`,
  no `bv_decide`.
* The correspondence between Go source and Lean definitions is by reading (the code cannot be built
  in this environment).  Each definition cites the lines it models.
* Go `int` is modelled as `Int`/`Nat` (no 64 bit overflow) unless a comment says otherwise.
* Go interface equality `==` on `any` is modelled as decidable equality on an abstract element type
  (i.e. uncomparable dynamic types, which panic in Go, are excluded).
* SQL (sqlite) is modelled as an ordered multiset of rows; float columns as exact rationals, except where
  a theorem says otherwise.

## 3. Properties: plan

| id | model | proof | expected |
|----|-------|-------|----------|
| C01 | `Model/EList`: AbstractEList over BasicEList as state machine over contents | invariant `Nodup` by induction over ops | proved |
| C02 | same, incl. slice-level `copy/append` model | refinement to `Spec/Seq` | proved |
| C03 | same, `Move` guard and `doMove` copy loops | function equality; counterexample for index = size | partial + violated |
| C04 | `BinarySearch` loop | fuel-free well founded recursion, sortedness | proved |
| C05 | iterator state machine | induction over the remaining list | proved |
| C06 | `Model/NotifyingList`: notifications emitted per op | replay function, induction over ops | proved (Clear/REMOVE_MANY without positions handled by spec) |
| C07 | `Merge` | positions spec; counterexample for the lost position | partial + violated |
| C08 | chain `Add`/`Dispatch` | induction | proved |
| C09 | `Model/EMap` with lazy cache | refinement to finite map | proved |
| C10 | same with list API | counterexample + partial under distinct keys | partial + violated |
| C11 | `Model/IDManager` | invariant; counterexample for SetID with an owned id | partial + violated |
| C12 | IncrementalIDManager | invariant all ids < counter | proved |
| C13 | tree iterator stack machine | simulation against recursive preorder | proved |
| C14 | Model/AllContents.lean: transition tables and the iterator of eallcontents.go over trees of objects | table soundness by induction over the depth, completeness by a rank of classes, iterator refined to a recursive visit, then permutations grouped by reference | partial |
| C15 | `econtentslist` | each view equals the flattened sequence | proved |
| C16 | `uri.go` path algorithms on character lists | segment level spec | proved |
| C17 | Resolve/Relativize | segment level; counterexample for equal paths | partial + violated |
| C18 | URI cache state | counterexample + partial for canonical component tuples | partial + violated |
| C19 | Graph: dynamic objects, ESet, EUnset, lists, EInverseAdd/Remove | invariant over all histories with a hole for the feature being changed | partial, 2 violations |
| C20 | Graph | same invariant as C19 | partial, 3 violations |
| C21 | CompactEObjectImpl and CompactEObjectContainer storage, flags as BitVec 64 | representation invariant over all write sequences against a record | partial + 2 violated |
| C22 | Encoder and decoder with their tables (objects, packages, classes, features, URIs, literals) over a stream of items; Go errors and panics are none | Relation between the tables of encoder and decoder kept by each function; induction over depth for objects, over lists for features and values; totality by counting the objects not written yet | partial: msgpack bytes and opposites not modelled; four violations |
| C23 | decodeObjects reorder loop | counterexample + partial | partial + violated |
| C24 | `xmlnamespaces.go` | refinement to scope stack; counterexample for panic | partial + violated |
| C25 | `xmlstring.go`, document header and namespace marks | induction over forests; tag scanner as spec; counterexamples | partial + violated |
| C26 | Model/Fragment.lean: GetURIFragment, GetEObject, the segments and the Go string functions they use, on byte strings | Round trip by induction on the containment path; split of a join; search by ID over the tree | partial; five violations |
| C27 | Model/Fragment.lean: EURIFragmentSegment and EObjectForFragmentSegment of model elements, PathEscape, PathUnescape, Atoi | Iff theorem from the number of dots and the lengths of escaped strings | partial; four violations |
| C28 | Model/Resource: contents lists, flag, notifications, on top of the notifying list model | refinement to a two field specification, per call lemma on the callbacks, induction over histories | partial + violated |
| C29 | registry chain | induction | proved |
| C30 | GetCodec | decision logic | proved |
| C31 | Model/ContentAdapter.lean: add/remove recursion of econtentadapter.go, handleContainment, dispatch to attached notifiers | invariant: contents of attached notifiers are attached, attached notifiers have an attached parent, with pending exceptions; heights for termination | partial |
| C32 | world of objects and lists with identity, containers and opposites; both passes of deepCopy with ESet, Insert, MoveObject and their inverse effects | induction over depth and features for the first pass; for the second pass an invariant (values are wanted ones, opposites symmetric, references done are complete), then a pairing for Equals (C33) | partial, violations |
| C33 | Model/DeepEqual.lean: equals over a heap with proxies, attributes, references, cycles | invariant of the matches (soundness), matches within a given pairing (completeness), number of unmatched objects (termination), composition of pairings | partial |
| C34 | class hierarchy with caches and stored IDs | invariant over histories; block structure of the inherited lists | proved |
| C35 | class hierarchy with caches, sub class links and invalidation through notifications | invariant over histories; three counterexamples | partial + violated |
| C36 | super types with caches | induction over hierarchy | proved |
| C37 | Model/StoreList.lean: EStoreList over AbstractEList/BasicENotifyingList, state = store, data, cache, size | refinement of every call to the sequence specification, whatever the cache | partial, violated for proxies, other stores, moves past the end |
| C38 | one row per value with a rational order number, every operation as its SQL statements; rounding as a parameter | refinement: the rows sorted by number are the sequence; counterexamples for bulk insertion in the middle and at the head and for doubles | partial + violated |
| C39 | the queues of the scheduler as a state machine over calls and goroutine steps | invariant over executions: every operation waits, directly or not, for the earlier writes with a common key; counterexamples | partial + violated |
| C40 | Model/SQLPending.lean: scheduler of C39 with one client, columns, Get/IsSet/Set/UnSet/SetContainer/AddRoot | Proofs/SQLPending.lean: invariant relating the last pending/done write of a column to the last stored value; induction over events | partial |
| C41 | as C39, with failing and panicking operations | progress measure, deadlock freedom by the order of the calls, invariant; counterexample for all continuations | partial + violated |
| C42 | prefix maps of `xmlencoder.go` and `xmldecoder.go` | invariant over uses; counterexamples for every fuel | partial + violated |
| C43 | element stacks of `xmldecoder.go` | invariant over tokens; induction over forests; counterexamples | partial + violated |
| C44 | Both factories, with FormatInt, ParseInt, ParseBool, and formatting and parsing of times with the layout used; strings as bytes; floating point formatting as parameter | Induction over digits for integers; cases over the digits of a date; lookup of literals | partial: floats by hypothesis, three violations |
| C45 | infinite channel | FIFO by invariant over schedules | proved |
| C46 | adapter list callbacks | invariant; counterexample for Clear/Set | partial + violated |
| C47 | URI map fixpoint | counterexample for non termination; partial with measure | partial + violated |
| C48 | override map with locks | lookup in the map; two counterexamples | partial + violated |
| C49 | list callbacks (DidAdd...) as a trace | replay of the trace, induction over ops; AddAll positions wrong | partial + violated |
| C50 | Authority | first occurrence of substrings | partial + violated |
| C51 | name map cache | invariant over histories; counterexample | partial + violated |
| C52 | mutexes of classes as a transition system | lock order by rank; deadlock witness | partial + violated |
| C53 | prefix maps of `xmlencoder.go` | invariant over uses; counterexample | partial + violated |
| C54 | SQLScheduler: WaitOperations | invariant of the queues | proved |
| C55 | Graph | slots of the changed feature are not touched by the other ends | partial |
| C56 | Graph: EContainmentFeature | case analysis on the container feature ID | partial, violated for bidirectional containments |
| C57 | As C44 | Induction over the text for the loops of ParseUint and of fractions; case analysis | partial: malformed text is accepted (violated) |
| C58 | State machine with the steps of executeSqlite: call, start, end, refusal; newQuery over the result of the SQL parser | Invariant over all runs; induction over the chain of statements waited for; measure for termination | partial: five violations |
| C59 | Encoder and decoder over tables with rows, state of the encoder with the numbers of packages, classes, literals and objects; any order of classes in the decoder | Invariant of the encoder and completeness of the rows of every object written (induction over depth, features, classes); decoder as an update of the slots, stable sort of rows | partial: ten violations |
| C60 | The encoder as a function from a graph of objects to the calls on the buffer (C25), the text, a parser of the XML subset, the decoder as a state machine over tokens with its stacks, references resolved at once or at the end. | Forest of elements with what is written for each feature; parsing it gives its tokens; invariant of the decoder over the items of the forest; then the pending references one by one. | partial: the code does not read back all it writes |
| C61 | Resource sets and resources are numbered; each set has its list, each resource its set; a call changes the list and then runs the inverses, which remove the resource from its old list. | Invariant in the middle of a call: which resources are still to be removed or added; both loops of inverses keep it. | proved |
| C62 | GetResource with fuel for loads inside of loads; Load sets the flag first and then asks for the resources that the document refers to. | Induction over the fuel with a relation saying that a world only grows; termination by the number of documents whose first resource is not loaded. | partial |
| C63 | ResolveInResourceSet on top of GetResource; the object of a fragment depends on the resource and on whether it is loaded. | What a proxy stands for does not change any more after it has been asked for. | partial |
| C64 | The list with the position-wise resolution of IndexOf, Get, ToArray, getNonDuplicates and RemoveAll on top of the list of C02. | Each call commutes with resolving all elements, by induction over the list; then induction over the calls. | partial |
| C65 | Go slices over a heap of arrays with capacities, append with any growth, the calls of BasicEList on top. | Simulation: every list owns its array; each call has a frame (slices it keeps); induction over the program. | partial |
| C66 | Object with properties, cache flag and stores as maps; the container with the conversion of feature IDs. | Simulation of the record of values, induction over the calls; encoding and decoding of the container feature are inverse. | partial |
| C67 | A package with its classifiers and features, the edits and questions, and everything that is remembered (classifier cache, classifier ID, reference type, type default, feature default with its factory) | Simulation between the package with its memory and the plain metamodel; what is remembered was asked and is still true; induction over the calls | partial: answers right unless something asked about is changed |
| C68 | Model elements with annotations, the memory of ExtendedMetaData with its entries and partial maps, the edits and questions | Simulation: what is remembered was asked and still holds; a map with as many entries as there are classifiers has them all (pigeonhole); induction over the calls | partial: answers right unless something asked about is changed |
| C69 | jsonencoder.go 34-200 and jsoncodec.go 30-77 as a function from objects to documents with fuel for the recursion | injectivity by induction on the fuel against a relation Same defined by depth; keys by induction; termination from a height | partial: six violations |
| C70 | ecoreutils.go 173-205 over the graphs of C19 with resources | the removal is computed in a consistent graph (invariant of C19) and compared with the specification Without; soundness of the loops by induction, ends by induction on the chain of containers | partial: opposite |
| C71 | ecoreutils.go 48-103 over the objects of C26 | the number of steps to the first occurrence of the ancestor is unique, so no object is visited twice; the segments are inverted by C27's lemmas | partial: empty path, nil |
| C72 | ESet, EUnset, EInverseAdd, EInverseRemove, EBasicSetContainer and the list calls with the notifications they create, Merge and dispatch of chains | relation between what an observer knows and EGet for each feature, kept by every call, with the features in the course of a change left out | partial |
| C73 | The four switches of the 14 classes, their accessors and overrides, on one element (Model/Reflect); the declared features as a table (Spec/Reflect) | Per class and feature, generic lemmas by type of field; read and write sets for the other features; induction for sequences | partial |
| C74 | Fields of all fourteen classes, the generated EBasicInverseAdd and EBasicInverseRemove switches class by class, EInverseAdd/Remove, EBasicRemoveFromContainer, list operations and setters | Invariant over both ends by induction over calls; refinement of every call to a specification on lists alone | partial |
| C75 | the list of the map as in C37 with the callbacks it makes for each call (from the data, or from the code for the store), the Go map of C09, the mutex as a flag | effect of the callbacks on the Go map equal to that of a plain list; simulation by the map of C09; induction over calls | partial |
| C76 | SQLStore as a store: ID manager, encodeObject, decodeObject and the operations on tables given as functions; objects in memory with the values they had before | refinement of objects with values and containers: rows and objects correspond one to one, cells stand for values, recursion of encodeObject over the contained objects; reads last as long as nothing is written | partial (violations above) |
| C77 | State machine of goroutines with their stack of what is to be done, the lock manager with reference counts, the pool of mutexes and the written rows; a small machine of readers. | Invariant tying reference counts, owners of mutexes and stacks to each other (locks are taken in descending rank); progress by induction on the rank of the lock waited for; a decreasing measure; coverage invariant for completeness; witnesses for the violations. | partial |
| C78 | SQLText: every statement as the sequence of texts and escaped names that the code writes; the tables made from a metamodel. Spec: SQLite's tokenizer as a state machine, statements as a small syntax with the tokens they have, and what they do to rows. | A text made of pieces that do not run into each other is read as the tokens of the pieces (induction over pieces); names by a case analysis of the escaping; the loops over columns by induction; the meaning of statements by uniqueness of the sorted list of rows. | partial |
| C79 | Attached, Detached, EResource, ESetResource, EBasicSetContainer, EBasicRemoveFromContainer, the contents of resources and containment references, with the manager of C11 and the events heard by a listener | invariant over the calls: lists, containers and contents agree; the managers and the events agree with the relation 'in the resource'; the walk of the contents gives exactly the objects inside | partial |
| C80 | the loops of setValueFromId, setFeatureValue, handleReferences over documents as lists of elements, on the object graph of C19/C20, with the encoder's choice of attributes | invariant: the graph is the contribution of the links made so far; each link is fresh; the moves at the end sort the lists | partial |
| C81 | The decoder of C22 as a parser of items with results, errors, panics and a bound on the calls; the errors of the resource. | Every function of the decoder has two properties that are kept by sequencing: its result depends on the items it reads only and damage of any of them is an error; it ends on any stream within as many calls as there are items. Documents accepted are compared with the decoder of C22. | partial |
| C82 | The scheduler of C39 with Close as another goroutine: it reads the registered operations, waits for their promises, reads again, closes | Invariant: an operation called before Close is waited for or has been executed; general theorems for the operations lost | partial |
| C83 | Files by URI, resources with contents and errors; encoders as sequences of tokens with failures of the file system at any place | Round trip of every encoder under no error, frame lemmas, induction over the later calls | partial |
| C84 | ParseURI with net/url Parse (scheme, authority, host, port, escapes, path, query, fragment), URIBuilder, CreateFileURI, CreateMemoryURI; TrimFragment, TrimQuery, Normalize, Resolve from the C16-C21 model | Clean tuples are read back by cutting the text part by part; what is read from a text without % is clean; Normalize and Resolve keep tuples clean, by induction over derivations | partial (violated) |
| C85 | the version, properties table, columns and rows of the objects table; encoder, decoder and store opening with their options | invariant of the database (layout, properties and rows agree) kept by every use; witnesses for the violations | partial |
| C86 | Stack machine over the calls that have not returned: user calls, notification loops with live cursors and reactions as arbitrary functions; lists as in the model of C06, single values, moves of children, adapter lists. | Invariants over all steps: what is still due to an observer plus what it was told equals what was sent; counting for the exactly-once claim. | partial: several observers are told changes in the wrong order |
| C87 | Model/XMLRoot.lean: saveTopObject, getRootFeature, saveFeatures as tokens; the stack machine of the decoder with document roots on tokens, objects as trees of values | mutual induction over objects and values: reading the tokens of the values of an object fills the object on top of the stack, for any stack below | partial: ambiguous names, subtypes at the root and odd document roots are violated |
| C88 | Tables of lists and columns given to objects by goroutines, AddAll and ESet with inverse references in steps of one reference of one object (Model/SQLTwoWay) | Invariant over loads (symmetric, no duplicates, subset); for goroutines, the values there plus the values pending are a permutation of what was saved | partial (code loses orders and makes duplicates) |
| C89 | Programs of readers, writers and stores over files and named databases in memory, URI names of SQLite (Model/SQLMemory) | Non-interference: programs with disjoint footprints, induction over the schedule; programs alone computed by induction over rows | partial (code shares databases by base name) |
| C90 | Objects with their property slices, container positions and cached contents features over any class table (positions as in C34); all the reflective calls on features without opposites. | Simulation by records (values per feature, container per object), induction over the history; a lemma shows where the hypotheses hold. | partial |
| C91 | tables .packages/.classes/.enums, the ID manager, encodeClass/encodePackage/encodeEnumLiteral, decodeClass/decodePackage/decodeEnumLiteral/decodeObject, Get/Set/UnSet/IsSet of enumeration attributes, reopening | invariant: what the caches know is in the tables; refinement to a specification that knows names only; counting of rows | partial |
| C92 | Go slices (arrays, windows, append with capacity), immutable lists and maps that keep a slice and a Go map, all reading methods | invariant over programs: the array of a list belongs to a make call given away, and slices from ToArray only append behind every list; so no step changes the cells of a list | partial |
| C93 | owners with a map and a containment list; entries with key, value and container; inverse add and remove with the owners' answers; Go map of lookups left out (C09, C10) | simulation with a machine of boxes of entries; invariant that contents and containers agree; general violations from any program | partial: maps keep entries that go elsewhere |
| C94 | resource set with on-demand loading, documents as lists of objects with references, resolution position by position, the loop with a growing list | monotone invariants over the loops; closure by induction on reachability; termination by counting resources | partial: resources not loaded at the start; unloading |
| C95 | State: list and single reference per object, container with feature, resource, contents of resources; a function gives what a proxy resolves to. Calls as functions on it, with the resolving inside IndexOf (Add, Remove, Set, Insert) as the code does. | Invariant H (container holds the object) by induction over programs with an exception set while an object moves; J (what holds it is the container) under the condition that entries are distinct at all times; frame lemmas for leave and resolve. | Violations in general for any owners and proxies. |
| C96 | Classes with super types and own operations, their numbers, the switch of the generated code with the embedded structs, type assertions of arguments; the tables and constants of the Ecore model. | Induction over the chain of embedded structs; numbers of operations are positions in the list of all operations; the Ecore tables are shown to be an instance. | partial (code violates the claim for multiple inheritance, nil, EObject operations, dynamic objects) |
| C97 | List and view over the same data: calls of the list as in C64, calls of the view by AbstractEList with the objects as they are and the functions of the list that it delegates to. | Refinement of each call of the view to the operation on sequences; injectivity of resolving on the list as invariant over mixed calls. | partial (code violates uniqueness through the view) |
| C98 | SetTarget in both modes, UnSetTarget, handleContainment incl. RESOLVE, over the world of C31 with proxies and targets | reduction to the C31 dispatch specification by congruence of the walks; induction over histories; violations for all trees | partial |
| C99 | XMLProcessor and XMIProcessor over a state of resource sets, resources in creation order and stored documents; GetResource by first URI match | invariants over operation sequences: old resources kept, URI and set of new ones known; the first match stays the first | partial: no set given makes a set per call; repeated loads are not found |
| C100 | GetEObjectID, SetEObjectID over the conversions of C44, search of a resource by ID, EObjectIDManagerImpl.SetID | case analysis on types with the conversion theorems, induction on the contents | partial: conversion loses texts, bytes panic, manager keeps the text given |
| C101 | saveIDRefMany, setValueFromId on texts, GetEObject of a fragment; paths as parameter | splitting what was joined, induction on the list | partial: IDs are not escaped |
| C102 | the encoder of C22; two graphs that agree on the saved objects and on classes and URIs of those they refer to | induction over the depth of encodeObject: equal documents; C22 for completeness | violations by concrete graphs |
| C103 | XMLSingle: fragments, ID manager, EncodeObject of the references of a tree, DecodeObject with immediate and deferred resolution | invariant over the elements, per object and reference; closed form of the deferred references; induction over the list of deferred references | partial, violations expected |
| C104 | DynamicEntry: classes, features by name and position, entries with the kept features | invariant: the kept features are those found by name; simulation by a list of pairs | partial, violations expected |
| C105 | SQLErrors: getValue, doSet, doIsSet, doUnSet with statements that may fail and stay in the queue of their table | invariant per table over the calls; once a statement is left no column changes | partial, violations expected |
| C106 | the declaration, the bytes of UTF-8, procInst, the choice of the reader of the encoding | search for a parameter past bytes that are not in its name; UTF-8 round trip by arithmetic on the bytes, induction over the text | partial: violated for other versions and for encodings other than UTF-8 |
| C107 | EContainer with removal from the proxy, container features by number, notifications | case analysis on the feature number and the kind of the containment feature | partial: the notification for feature -1 |
| C108 | the list calls of the SQL store with failures of single statements, the queue of the table as in C105 | simulation by induction over histories; case analysis of each call; induction over the values of AddAll | partial: errors are answers, AddAll is not atomic |
| C109 | Elements with their fields, containers and lists; the Create, Init and Add calls setter by setter; the conversion of texts is a parameter | Invariant over all prefixes of a program: heap equals what the calls say; definedness by the same invariant | partial: violated for repeated InitEDataType |
| C110 | the conversion of IDs of the incremental manager on top of the model of the manager of C11 | ParseInt accepts exactly the texts of int64 numbers; induction over the document with an invariant on both maps and the counter | partial |
| C111 | Create of dynamic factories and of the factory of Ecore, with the IDs and the abstract classes of the Ecore package | cases of the decision; the IDs of Ecore are different | partial |

<!-- generated by tools/design.py -->

## 4. What is modelled

Lines of `/repo/ecore` cited by the definitions of each model. Without lines: see the comments of the definitions.

| file | model | lines |
|---|---|---|
| abstracteadapter.go | Adapters | 27-29, 31-35 |
| abstractelist.go | Attach | 78-216 |
| abstractelist.go | BinaryList | 98-108, 163-176 |
| abstractelist.go | CrossContainment | 76-83, 98-108, 144-150, 153-161, 200-212 |
| abstractelist.go | DeepCopy | 80-91, 110-121, 153-161 |
| abstractelist.go | EList | 51-76, 78-85, 87-96, 98-108, 110-123, 125-132, 135-141, 144-150, 153-161, 163-176, 178-188, 191-197, 200-212, 214-216, 227-229, 231-239, 241-243, 245-254 |
| abstractelist.go | Graph | 78-216 |
| abstractelist.go | MapEntries | 78-85, 98-108, 144-150, 152-161, 200-212 |
| abstractelist.go | MetaContainment | 78, 98, 144, 153, 200 |
| abstractelist.go | Notify | 78-216 |
| abstractelist.go | ResolveList | 51-76, 78-216 |
| abstractelist.go | ResourceSet | 78-216 |
| abstractelist.go | SQLTwoWay | 87-96 |
| abstractelist.go | SharedList | 51-76, 78-216 |
| abstractelist.go | StoreList | 51-76, 78-85, 87-96, 98-108, 110-123, 125-132, 135-141, 144-150, 153-161, 163-176, 191-197, 200-212, 241-243 |
| abstractelist.go | StoreMap | 78-216 |
| abstractelist.go | UnresolvedView | 51-76, 78-216 |
| abstractelist.go | XMLRefs | 125-132, 154-162 |
| abstractelist.go | XMLSingle | 80-91 |
| abstractenotifier.go | Adapters | 45-52, 54-57, 117-124 |
| abstractenotifier.go | ContentAdapter | 54-57, 59-66 |
| abstractenotifier.go | ContentProxies | 117-124 |
| abstractenotifier.go | GraphNotes | 126-129 |
| abstractenotifier.go | MetaLookup |  |
| abstractenotifier.go | ProxyContainer | 126-129 |
| abstractenotifier.go | Reentrant | 117-129 |
| abstracteobject.go | Ancestors | 140-171, 194-212 |
| abstracteobject.go | Attach | 127-171, 188-212, 422-476, 575-610, 650-658, 661-667, 689-711, 753-764, 782-877 |
| abstracteobject.go | CrossContainment | 128-136, 139-172, 277-342, 441-485, 567-604, 650-658, 661-667, 670-672, 753-777, 782-851, 854-864 |
| abstracteobject.go | DeepCopy | 290-299, 357-388, 441-499, 501-537, 650-736, 854-877 |
| abstracteobject.go | DynamicEntry | 241-275, 390-416, 471 |
| abstracteobject.go | DynamicObject | 104-119, 173-186, 218-227, 241-344, 357-392, 394-499, 502-545, 548-629, 650-659, 661-667, 725-768, 854-865 |
| abstracteobject.go | Fragment | 887-913, 915-924 |
| abstracteobject.go | Graph | 101-121, 174-185, 188-212, 277-342, 357-388, 391-499, 541-629, 650-658, 661-667, 854-877 |
| abstracteobject.go | GraphNotes | 391-499, 541-629, 650-658, 661-667, 675-736, 739-779, 782-851, 854-877 |
| abstracteobject.go | Invoke | 229-238, 632-647 |
| abstracteobject.go | MapEntries | 650-658, 660-670, 753-760 |
| abstracteobject.go | MetaContainment | 650, 662, 739, 782, 853 |
| abstracteobject.go | ProxyContainer | 101-121, 277-288, 302-306, 753-779, 854-877 |
| abstracteobject.go | Reentrant | 487-497, 620-627 |
| abstracteobject.go | Reflect | 259-275, 819, 827-850 |
| abstracteobject.go | SQLTwoWay | 443-473, 650-658, 660-667, 674-735, 753-779 |
| abstracteobject.go | StoreObject |  |
| abstracteobject.go | XMLCodec | 887-913, 915-924 |
| abstracteobject.go | XMLRefs | 502-538 |
| abstractnotification.go | Notify | 12-19, 50-127, 129-148 |
| basicedatatypelist.go | SQLCodec |  |
| basicelist.go | EList | 12-24, 64-71, 73-83, 85-93, 95-105, 107-123, 125-139, 141-153, 159-167, 169-177 |
| basicelist.go | SharedList | 33-57, 64-71, 73-83, 85-93, 95-105, 107-123, 125-139, 141-153, 159-167, 169-177, 184-186 |
| basicelist.go | StoreList |  |
| basicelist.go | StoreMap | 64-71 |
| basicemap.go | EMap | 14-19, 30-37, 39-58, 60-65, 71-79, 88-99, 118-120, 122-124, 134-142, 159-167, 169-175, 177-181, 183-187 |
| basicemap.go | MapEntries | 14-19, 71-79, 88-99, 126-132 |
| basicemap.go | StoreMap | 14-19, 71-79, 134-142, 152-157, 159-167 |
| basicenotifyinglist.go | Attach | 174-332 |
| basicenotifyinglist.go | CrossContainment | 157-166, 175-181, 188-193, 217-227, 229-248, 255-264 |
| basicenotifyinglist.go | DeepCopy | 158-170, 236-262 |
| basicenotifyinglist.go | DynamicObject |  |
| basicenotifyinglist.go | Graph | 158-332 |
| basicenotifyinglist.go | GraphNotes | 97-100, 149-154, 157-166, 175-347 |
| basicenotifyinglist.go | MapEntries | 156-166, 175-181, 188-193, 215-225, 227-247, 256-265 |
| basicenotifyinglist.go | MetaBuild |  |
| basicenotifyinglist.go | MetaContainment | 149, 157, 175, 188, 215, 227, 256 |
| basicenotifyinglist.go | MetaLookup |  |
| basicenotifyinglist.go | Notify | 90-95, 97-100, 115-138, 149-173, 175-181, 183-186, 188-193, 195-213, 215-225, 227-247, 249-254, 256-265, 267-291, 293-347 |
| basicenotifyinglist.go | ProxyContainer | 157-166 |
| basicenotifyinglist.go | Reentrant | 97-100, 175-181 |
| basicenotifyinglist.go | ResolveList | 289-348 |
| basicenotifyinglist.go | Resource | 322-324 |
| basicenotifyinglist.go | ResourceSet | 156-165, 175-332 |
| basicenotifyinglist.go | SQLTwoWay | 183-213 |
| basicenotifyinglist.go | SharedList | 199-213 |
| basicenotifyinglist.go | StoreList | 179-185, 187-190, 199-218, 301-365 |
| basicenotifyinglist.go | StoreMap | 199-218, 301-365 |
| basicenotifyinglist.go | UnresolvedView | 289-348 |
| basiceobject_impl.go | Attach | 97-118 |
| basiceobject_impl.go | DynamicObject | 86-93 |
| basiceobject_impl.go | Graph | 23-26, 107-110 |
| basiceobjectlist.go | Attach | 121-131, 133-143 |
| basiceobjectlist.go | CrossContainment | 72-79, 85-92, 94-112 |
| basiceobjectlist.go | DeepCopy |  |
| basiceobjectlist.go | DynamicObject | 15-30, 118-131, 133-142 |
| basiceobjectlist.go | EClass | 82-111 |
| basiceobjectlist.go | Graph | 121-131, 133-143 |
| basiceobjectlist.go | GraphNotes | 121-131, 133-143 |
| basiceobjectlist.go | MapEntries | 133-143 |
| basiceobjectlist.go | MetaContainment | 123 |
| basiceobjectlist.go | Reentrant | 121-131 |
| basiceobjectlist.go | ResolveAll | 82-112 |
| basiceobjectlist.go | ResolveList | 66-71, 73-80, 82-84, 86-93, 96-112 |
| basiceobjectlist.go | SQLCodec |  |
| basiceobjectlist.go | UnresolvedView | 57-64, 145-190 |
| basiceobjectmap.go | DynamicEntry | 68-70 |
| basiceobjectmap.go | MapEntries | 68-74 |
| basiceobjectmap.go | StoreMap | 11-14 |
| binarycodec.go | Binary | 31-58, 60-133 |
| binarycodec.go | Save |  |
| binarydecoder.go | Binary | 69-103, 105-113, 191-280, 282-294, 340-476, 478-496, 498-535, 537-576, 578-583, 585-600, 602-621 |
| binarydecoder.go | BinaryErrors | 69-103, 105-113, 115-163, 165-167, 169-189, 191-280, 288-294, 340-476, 478-496, 498-535, 537-569, 585-600, 602-621 |
| binarydecoder.go | BinaryList | 295-336 |
| binarydecoder.go | IDForms | 239-248 |
| binarydecoder.go | ResolveAll |  |
| binaryencoder.go | Binary | 22-27, 29-31, 94-114, 116-125, 181-192, 194-290, 292-374, 378-401, 403-422, 424-458, 460-465, 467-493, 501-526 |
| binaryencoder.go | Save | 96-118 |
| compacteobject_container.go | Compact | 12-15, 17-20 |
| compacteobject_container.go | Reflect | 12-24 |
| compacteobject_impl.go | Compact | 16-20, 22-35, 37-39, 41-43, 45-55, 57-70, 72-90, 92-115, 117-142, 144-255 |
| compacteobject_impl.go | MetaContainment | 231 |
| compacteobject_impl.go | Reflect | 36-38 |
| deepcopy.go | DeepCopy | 12-16, 26-47, 49-56, 58-62, 64-70, 72-76, 78-89, 91-100, 102-160 |
| deepequal.go | DeepEqual | 14-16, 24-98, 100-113, 115-128, 130-171 |
| delegatingelist.go | UnresolvedView | 9-51 |
| dynamicemapentry_impl.go | DynamicEntry | 3-7, 16-20, 22-36 |
| dynamiceobject_impl.go | DeepCopy | 84-86 |
| dynamiceobject_impl.go | DynamicEntry | 13-17, 41-46, 60-62, 64-66, 84-89 |
| dynamiceobject_impl.go | DynamicObject | 16, 20-31, 41-46, 60-62, 64-70, 76-78, 84-89 |
| dynamiceobject_impl.go | Graph | 16, 52-54, 76-78 |
| dynamiceobject_impl.go | Invoke | 80-82 |
| dynamiceobject_impl.go | XMLRefs | 72-74 |
| eallcontents.go | AllContents | 11-15, 19-26, 28-40, 42-47, 49-59, 61-63, 65-69, 83-85, 93-99, 101-108, 110-138, 140-146, 181-201, 205-251 |
| eannotation_impl.go | Factory | 58-60 |
| eannotation_impl.go | MapEntries | 243-247 |
| eannotation_impl.go | MetaContainment | 83, 91, 136, 140, 228, 241 |
| eannotation_impl.go | Reflect | 83-88, 91-113, 147-168, 170-192, 194-209, 211-226 |
| eattribute_ext.go | Reflect | 24-30, 32-39 |
| eattribute_impl.go | MetaBuild | 34 |
| eattribute_impl.go | Reflect | 77-89, 91-98, 100-107, 109-118 |
| eclass.go | Invoke | 14-16 |
| eclass_ext.go | AllContents |  |
| eclass_ext.go | ClassLocks | 265-419, 437-468 |
| eclass_ext.go | DynamicEntry | 138-156, 158-169, 470-477 |
| eclass_ext.go | DynamicObject | 158-169, 324-338 |
| eclass_ext.go | EClass | 15-22, 35-107, 116-120, 122-124, 130-136, 138-156, 158-169, 183-194, 196-220, 230-263, 265-298, 300-322, 324-338, 340-354, 356-379, 381-404, 406-419, 437-468 |
| eclass_ext.go | Factory | 470-477 |
| eclass_ext.go | Fragment | 138-157 |
| eclass_ext.go | Graph | 127-133, 158-169, 390-400 |
| eclass_ext.go | Invoke | 183-194, 354-380 |
| eclass_ext.go | SQLObjects | 158-169 |
| eclass_ext.go | XMLCodec | 138-157, 271-293 |
| eclass_impl.go | DeepCopy | 436-446 |
| eclass_impl.go | EClass |  |
| eclass_impl.go | Invoke | 15-16, 512-537 |
| eclass_impl.go | MetaBuild |  |
| eclass_impl.go | MetaContainment | 303, 311, 539, 552 |
| eclass_impl.go | Reflect | 15-33, 76-227, 318-429, 431-452, 454-469, 471-510 |
| eclassifier_ext.go | MetaBuild | 24-29, 40-42 |
| eclassifier_ext.go | MetaLookup | 24-29, 31-33 |
| eclassifier_ext.go | Reflect | 24-29, 31-42 |
| eclassifier_impl.go | Factory | 66-72, 89-94 |
| eclassifier_impl.go | Invoke | 206-213 |
| eclassifier_impl.go | MetaBuild | 39, 41, 67-72 |
| eclassifier_impl.go | MetaContainment | 89, 215, 217, 228 |
| eclassifier_impl.go | MetaLookup | 21, 37-42, 67-72 |
| eclassifier_impl.go | Reflect | 67-72, 89-94, 102-108, 138-155, 157-170, 172-185, 187-204 |
| ecodecregistry.go | Registry |  |
| ecodecregistry_impl.go | Registry | 14-18, 35-54 |
| econtentadapter.go | ContentAdapter | 42-69, 71-89, 112-160, 162-169, 171-175, 177-193 |
| econtentadapter.go | ContentProxies | 42-69, 71-89, 112-160, 162-169, 171-175, 177-193 |
| econtentslist.go | Attach | 28-75 |
| econtentslist.go | DynamicObject |  |
| econtentslist.go | EContents | 5-10, 12-18, 20-26, 28-78, 89-95, 98-113, 116-132, 135-142, 145-154, 157-159, 173-179, 181-186 |
| ecorefactory_impl.go | Convert | 328-380, 382-434, 475-481, 497-503, 510-516, 523-529, 536-548 |
| ecorefactory_impl.go | Factory | 88-124 |
| ecorefactory_impl.go | MetaBuild | 126-318 |
| ecorefactory_impl.go | Reflect |  |
| ecorepackage.go | Factory | 29-869 |
| ecorepackage.go | Invoke | 38-866 |
| ecorepackage.go | MetaContainment | 24 |
| ecorepackage.go | Reflect |  |
| ecorepackage_impl.go | Factory | 947-1102, 1161-1415 |
| ecorepackage_impl.go | Invoke | 930-1100, 1144-1159, 1192-1410 |
| ecorepackage_impl.go | MetaContainment | 1164, 1239, 1271, 1274 |
| ecoreutils.go | AllContents | 235-237 |
| ecoreutils.go | Ancestors | 173-205 |
| ecoreutils.go | DeepCopy | 149-161 |
| ecoreutils.go | DeepEqual | 163-171 |
| ecoreutils.go | ObjectID | 16-24, 26-36 |
| ecoreutils.go | Processor | 105-148 |
| ecoreutils.go | RelPath | 48-103 |
| ecoreutils.go | ResolveAll | 126-147, 207-233 |
| ecoreutils.go | ResourceSet | 105-148 |
| ecoreutils.go | XMLCodec | 16-24 |
| edatatype_ext.go | MetaBuild | 17-21, 67-74 |
| edatatype_ext.go | MetaLookup | 17-21, 30-37, 39-65, 67-74 |
| edatatype_ext.go | Reflect | 41-69 |
| edatatype_impl.go | MetaBuild | 30 |
| edatatype_impl.go | MetaLookup | 18 |
| edatatype_impl.go | Reflect | 60-67, 69-76, 78-85, 87-94 |
| eenum_ext.go | Convert | 42-51, 53-62 |
| eenum_ext.go | MetaLookup | 23-29, 32-40, 43-51, 54-62 |
| eenum_ext.go | SQLMeta | 24-30, 43-51, 54-62 |
| eenum_impl.go | Invoke | 15-16, 117-128 |
| eenum_impl.go | MetaContainment | 76, 130, 140 |
| eenum_impl.go | MetaLookup | 18 |
| eenum_impl.go | Reflect | 79-86, 88-97, 99-106, 108-115 |
| eenumliteral_ext.go | Convert | 23-28 |
| eenumliteral_ext.go | MetaBuild | 23-28 |
| eenumliteral_ext.go | MetaLookup | 22-27 |
| eenumliteral_ext.go | Reflect | 23-28 |
| eenumliteral_ext.go | SQLMeta | 23-28 |
| eenumliteral_impl.go | MetaBuild | 30-36 |
| eenumliteral_impl.go | MetaContainment | 156, 169 |
| eenumliteral_impl.go | MetaLookup | 18-24 |
| eenumliteral_impl.go | Reflect | 51-56, 64-70, 100-113, 115-126, 128-139, 141-154 |
| efactory_ext.go | BinaryErrors | 31-34, 52-58 |
| efactory_ext.go | Convert | 46-96, 98-144 |
| efactory_ext.go | DynamicEntry | 31-44 |
| efactory_ext.go | Factory | 31-44 |
| efactory_ext.go | MetaBuild | 47-50 |
| efactory_ext.go | MetaLookup | 48-95 |
| efactory_ext.go | SQLMeta | 41-48, 92-98 |
| efactory_impl.go | Invoke | 130-141 |
| efactory_impl.go | MetaContainment | 63, 71, 143, 156 |
| efactory_impl.go | Reflect | 63-68, 71-100, 102-110, 112-119, 121-128 |
| egenerictype_impl.go | Invoke | 304-311 |
| egenerictype_impl.go | MetaContainment | 102, 180, 217, 313 |
| egenerictype_impl.go | Reflect | 74-86, 93-99, 138-150, 171-177, 220-243, 245-266, 268-283, 285-302 |
| elist.go | EList | 56-72 |
| elistiterator.go | EList | 12-15, 18-25, 28-30 |
| elistiterator.go | Immutable | 17-30 |
| elistiterator.go | ResolveAll | 18-31 |
| elistiterator.go | Tree |  |
| emapentry.go | MapEntries |  |
| emodelelement.go | Invoke | 13-15 |
| emodelelement_ext.go | Fragment | 43-128, 130-190 |
| emodelelement_impl.go | Invoke | 107-114 |
| emodelelement_impl.go | MetaContainment | 66, 116, 126 |
| emodelelement_impl.go | Reflect | 69-76, 78-87, 89-96, 98-105 |
| enamedelement_impl.go | MetaBuild | 52-58 |
| enamedelement_impl.go | MetaLookup | 18, 52-58 |
| enamedelement_impl.go | Reflect | 52-58, 60-67, 69-76, 78-85, 87-94 |
| enotification.go | Notify | 21-42 |
| eobject_impl.go | Invoke | 39-76 |
| eobjectidmanager_impl.go | IDManager | 16-19, 33-39 |
| eobjectidmanager_impl.go | ObjectID | 15-18, 41-63 |
| eoperation_ext.go | EClass | 24-41 |
| eoperation_impl.go | Invoke | 180-187 |
| eoperation_impl.go | MetaBuild | 36 |
| eoperation_impl.go | MetaContainment | 62, 111, 189, 205 |
| eoperation_impl.go | Reflect | 62-67, 78-82, 114-133, 135-150, 152-163, 165-178 |
| epackage_ext.go | MetaBuild | 48, 82-158 |
| epackage_ext.go | MetaContainment | 46 |
| epackage_ext.go | MetaLookup | 19-29, 31-36, 45-50, 52-69 |
| epackage_ext.go | Reflect | 46-51 |
| epackage_ext.go | SQLMeta | 53-69 |
| epackage_impl.go | Invoke | 246-253 |
| epackage_impl.go | MetaContainment | 83, 86, 126, 162, 166, 255, 281 |
| epackage_impl.go | MetaLookup | 72-77 |
| epackage_impl.go | Reflect | 86-115, 169-186, 188-208, 210-225, 227-244 |
| epackageregistry_impl.go | Registry | 12-15, 24-30, 32-50, 52-61, 63-70, 72-79 |
| epackageregistry_impl.go | SQLMeta | 52-70 |
| eparameter_impl.go | MetaContainment | 40, 65, 78 |
| eparameter_impl.go | Reflect | 40-45, 47-54, 56-63 |
| ereference_ext.go | EClass | 25 |
| ereference_ext.go | MetaBuild | 25-28 |
| ereference_ext.go | MetaLookup | 13-16, 30-39 |
| ereference_ext.go | Reflect | 25-28, 30-50 |
| ereference_impl.go | MetaBuild | 39-44 |
| ereference_impl.go | Reflect | 75-87, 94-100, 148-177, 179-195, 197-210, 212-229 |
| eresource_impl.go | Attach | 79-97, 230-241, 336-390, 469-486, 597-599 |
| eresource_impl.go | CrossContainment | 79-87, 89-97 |
| eresource_impl.go | Fragment | 237-252, 254-291, 293-300, 302-309, 311-323, 325-336, 338-351 |
| eresource_impl.go | IDRefs | 236-251, 253-292, 311-323 |
| eresource_impl.go | ObjectID | 311-323 |
| eresource_impl.go | ResolveAll | 419-468, 474-491 |
| eresource_impl.go | Resource | 62-69, 99-117, 119-126, 128-135, 212-217, 423-470, 476-493 |
| eresource_impl.go | ResourceSet | 419-470, 574-589 |
| eresource_impl.go | Save | 161-172, 419-470, 476-493, 505-546 |
| eresource_impl.go | XMLCodec | 237-252, 254-291, 293-300, 302-309, 311-323, 325-336, 338-351 |
| eresource_impl.go | XMLSingle | 236-251, 253-292, 311-352 |
| eresourceset_impl.go | Processor | 68-117, 119-124 |
| eresourceset_impl.go | ResolveAll | 61-67, 69-118, 120-125, 127-134 |
| eresourceset_impl.go | ResourceSet | 26-31, 33-38, 71-119, 121-126, 128-135 |
| estore.go | SQLObjects |  |
| estore.go | StoreObject |  |
| estoreeobject_impl.go | StoreObject | 16, 24-36, 68-99, 101-118, 126-129, 131-139, 141-157, 159-176, 178-190, 192-229, 231-254, 256-268 |
| estorelist.go | StoreList | 19-33, 42-55, 120-137, 140-177, 186-207, 209-228, 230-255, 257-282, 285-310, 312-340, 342-363, 365-383, 385-421, 423-428, 430-471, 485-510, 512-532 |
| estorelist.go | StoreMap | 43, 186-207, 209-228, 230-255, 257-282, 285-310, 317-319, 325-328, 342-363, 365-383, 430-471 |
| estorelist.go | UnresolvedView | 41-42, 567-573 |
| estoremap.go | StoreMap | 32, 45-48, 50-56, 62-66, 69-75, 83-91 |
| estringtostringmapentry_impl.go | Reflect | 91-100, 102-111, 113-122, 124-133 |
| estructuralfeature_ext.go | DeepCopy | 87-96 |
| estructuralfeature_ext.go | Graph | 87-96 |
| estructuralfeature_ext.go | MetaLookup | 13-17, 19-24, 27-48, 64-67 |
| estructuralfeature_ext.go | Reflect | 13-17, 27-48, 51-61, 64-67, 75-77 |
| estructuralfeature_ext.go | SQLMeta | 26-48 |
| estructuralfeature_impl.go | Invoke | 279-286 |
| estructuralfeature_impl.go | MetaBuild | 38-48 |
| estructuralfeature_impl.go | MetaContainment | 92, 288, 301 |
| estructuralfeature_impl.go | Reflect | 92-97, 183-206, 208-229, 231-252, 254-277 |
| etreeiterator.go | Tree | 12-17, 19-21, 23-29, 31-35, 37-39, 41-77 |
| etypedelement_ext.go | Reflect | 25-28, 31-34 |
| etypedelement_impl.go | MetaBuild | 36-43, 81-162 |
| etypedelement_impl.go | MetaLookup | 81-87 |
| etypedelement_impl.go | Reflect | 36-42, 62-74, 81-87, 90-96, 164-186, 188-204, 206-221, 223-242 |
| etypeparameter_impl.go | MetaContainment | 61, 102 |
| etypeparameter_impl.go | Reflect | 64-71, 73-82, 84-91, 93-100 |
| euriconverter_impl.go | ResourceSet | 43-49 |
| euriconverter_impl.go | Save | 13-17, 29-36 |
| euriconverter_impl.go | URI | 41-47, 49-56 |
| extendedmetadata.go | ExtMeta | 13, 25-29, 31-36, 49-70, 79-84, 86-88, 90-102, 104-113, 115-128, 130-132, 134-136, 138-144, 146-164, 171-178, 180-196 |
| extendedmetadata.go | XMLRoot | 47-69, 129-131, 133-139, 141-147 |
| fileurihandler.go | Save | 29-39 |
| immutableEList.go | Immutable | 24-180 |
| immutableEList.go | SharedList | 173-176 |
| immutableemap.go | Immutable | 3-6, 8-20, 22-50 |
| jsoncodec.go | JSON | 30-39, 41-77 |
| jsoncodec.go | Save | 26-28 |
| jsonencoder.go | JSON | 18, 22-32, 34-42, 59-74, 76-79, 93-151, 154, 157-160, 162-172, 174-200 |
| jsonencoder.go | Save | 33-42 |
| memoryurihandler.go | Save | 18-20 |
| notification.go | Reflect | 38-53 |
| notificationchain.go | ContentAdapter | 43-51 |
| notificationchain.go | ContentProxies | 43-51 |
| notificationchain.go | Notify | 23-34, 37-45 |
| reflectiveeobject_impl.go | DynamicObject | 20-25, 35-37, 47-49, 51-57, 63-68 |
| sqlbase.go | SQLErrors | 127-265 |
| sqlbase.go | SQLListErrors | 127-265 |
| sqlbase.go | SQLQueries | 31-37, 52-103, 112, 127-265 |
| sqlbase.go | SQLSettings | 109-126, 281-311 |
| sqlcodec.go | SQLCodec | 59-81, 83-151 |
| sqlcodec.go | SQLMemory | 32-50 |
| sqlcodec.go | SQLObjects | 59-120 |
| sqlcodec.go | SQLSettings | 31 |
| sqlcodec.go | SQLText | 83-151 |
| sqlcodec.go | Save | 52-54 |
| sqldecoder.go | EncoderLocks | 278-340 |
| sqldecoder.go | SQLCodec | 278-340, 388-566, 805-882, 884-899, 901-931, 933-959, 961-1004, 1006-1033, 1044-1058, 1060-1090, 1092-1131, 1133-1144 |
| sqldecoder.go | SQLMemory | 584-663, 665-678, 680-719 |
| sqldecoder.go | SQLMeta | 196-228, 230-263, 278-340, 342-386, 484-500 |
| sqldecoder.go | SQLObjects | 278-340, 388-425, 470-478, 551-562 |
| sqldecoder.go | SQLPending | 20-37, 388-508 |
| sqldecoder.go | SQLSettings | 146-161, 163-194, 278-340, 742-803, 805-857, 961-1003 |
| sqldecoder.go | SQLText | 203, 237, 351, 870-963, 1065, 1093-1094 |
| sqldecoder.go | SQLTwoWay | 1015-1050 |
| sqlencoder.go | EncoderLocks | 120-130, 132-141, 143-154, 156-167, 280-418 |
| sqlencoder.go | SQLCodec | 263-270, 277-279, 281-418, 420-454, 456-497, 501-569, 571-646, 648-678, 808-816, 866-903 |
| sqlencoder.go | SQLMemory | 687-787 |
| sqlencoder.go | SQLMeta | 30-35, 280-418, 436-443, 456-499, 501-569, 648-680 |
| sqlencoder.go | SQLObjects | 263-269, 283-418, 420-455, 602-633 |
| sqlencoder.go | SQLSettings | 197-215, 217-232, 234-261, 278-340, 797-864, 866-903 |
| sqlencoder.go | Save | 687-787, 866-903 |
| sqlobject.go | SQLObjects | 3-7 |
| sqlschema.go | SQLCodec | 137-197, 360-421, 430-522 |
| sqlschema.go | SQLList | 486-519 |
| sqlschema.go | SQLMeta | 371-421 |
| sqlschema.go | SQLObjects | 384-398 |
| sqlschema.go | SQLSettings | 134-192, 194-221, 223-244, 391-408 |
| sqlschema.go | SQLText | 8-16, 63-73, 91-98, 106-112, 114-135, 137-197, 199-224, 226-246, 252-254, 256-280, 333-349, 351-421, 423-522, 524-547, 549-557, 559-564 |
| sqlstore.go | Channel | 526-589 |
| sqlstore.go | SQLClose | 998-1034, 1121-1275, 2280-2291, 2359-2379 |
| sqlstore.go | SQLErrors | 1363-1392, 1394-1418, 1433-1473 |
| sqlstore.go | SQLList | 149-181, 1686-1732, 1921-1935, 1937-1987 |
| sqlstore.go | SQLListErrors | 1363-1418, 1568-1760, 1861-2125 |
| sqlstore.go | SQLMemory | 623-713 |
| sqlstore.go | SQLMeta | 331-420, 1352-1361, 1379-1418, 1432-1473, 1491-1530, 1542-1566, 1761-1770, 1805-1830 |
| sqlstore.go | SQLObjects | 341-346, 380-392, 394-405, 407-418, 888-928, 930-941, 943-967, 970-979, 1352-1361, 1379-2290 |
| sqlstore.go | SQLPending | 1275-1288, 1363-1377 |
| sqlstore.go | SQLScheduler | 426-480, 600, 998-1032, 1034-1350 |
| sqlstore.go | SQLSettings | 719-854, 2140-2187 |
| sqlstore.go | SQLText | 36-51, 53-68, 70-83, 110-129, 131-149, 151-167, 169-185, 187-198, 200-211, 213-224, 226-240, 242-256, 258-272, 274-285, 287-298, 300-318, 1809 |
| uniqueidmanager.go | IDForms | 88-96, 107-114, 195-222 |
| uniqueidmanager.go | IDManager | 13-22, 24-34, 44-56, 62-75, 77-86, 88-96, 98-105, 107-114, 116-124, 184-228 |
| uniqueidmanager.go | XMLSingle | 13-22, 44-56, 88-96 |
| uri.go | NetURL | 31-108, 210-235, 744-756, 758-765 |
| uri.go | ResourceSet | 424-426 |
| uri.go | URI | 110-120, 133-140, 142-203, 210-235, 273, 283-299, 305-325, 327-356, 358-381, 383-407, 409-422, 424-426, 428-450, 471-521, 534-574, 578-629, 633-668, 683-725, 727-742 |
| xmidecoder.go | XMLCodec | 18-23, 36-41, 51-57 |
| xmiencoder.go | XMLCodec | 33, 43-47 |
| xmiprocessor.go | Processor | 34 |
| xmlcodec.go | Save |  |
| xmldecoder.go | IDForms | 523-528 |
| xmldecoder.go | IDRefs | 584-660, 727-735 |
| xmldecoder.go | Processor | 105-107 |
| xmldecoder.go | ResolveAll |  |
| xmldecoder.go | Save | 144-168 |
| xmldecoder.go | XMLCodec | 26, 40-43, 45-50, 97, 119-128, 144-168, 170-179, 181-228, 237-246, 248-250, 270-280, 295-308, 316-323, 325-362, 364-376, 378-415, 417-445, 447-497, 517-536, 562-581, 583-655, 657-674, 738-746 |
| xmldecoder.go | XMLDecl | 84-117, 803-835 |
| xmldecoder.go | XMLElements | 38-39, 143-167, 170-179, 181-215, 295-308, 316-323, 325-366, 368-380, 382-396, 398-420, 422-450, 499-515, 546-559, 760-773, 775-780, 794-798 |
| xmldecoder.go | XMLLex | 143-167 |
| xmldecoder.go | XMLPrefix | 26-27, 282-293 |
| xmldecoder.go | XMLRefs | 45-50, 96, 144-168, 170-179, 330-332, 387-389, 411-413, 470-497, 499-515, 517-536, 562-581, 584-585, 590-648, 677-737, 739-747 |
| xmldecoder.go | XMLRoot | 170-179, 181-215, 295-308, 316-323, 325-362, 364-376, 417-445, 447-497, 517-536, 562-581, 760-773 |
| xmldecoder.go | XMLSingle | 45-50, 129-168, 170-179, 215-222, 295-305, 480-497, 517-537, 590-648, 737-747 |
| xmlencoder.go | IDRefs | 522-548, 795-801 |
| xmlencoder.go | Processor | 94-96 |
| xmlencoder.go | Save | 108-152, 768-789 |
| xmlencoder.go | XMLCodec | 22-50, 108-154, 156-159, 161-178, 205-218, 220-226, 228-362, 364-370, 372-391, 433, 475-479, 482, 498-510, 512-520, 522-548, 550-552, 554-556, 561-617, 619-623, 627-640, 642-661, 664-666, 683-692, 768-793, 795-801 |
| xmlencoder.go | XMLDecl | 80-81, 100-106, 133-154, 156-159 |
| xmlencoder.go | XMLPrefix | 57-73, 83-85, 135-142, 380-385, 427-429, 475-479, 682-692, 701-733, 735-746 |
| xmlencoder.go | XMLRefs | 228-362, 464-473, 512-548, 562-618 |
| xmlencoder.go | XMLRoot | 161-177, 179-203, 228-256, 325-362, 439-479, 664-666, 668-692 |
| xmlencoder.go | XMLSingle | 122-130, 220-226 |
| xmlencoder.go | XMLString | 132-155, 205-218, 364-370 |
| xmlnamespaces.go | XMLNamespaces | 14-19, 28-35, 37-42, 44-59, 61-69, 71-79 |
| xmlprocessor.go | Processor | 52-58, 60-65, 67-80, 82-91, 93-103, 119-129 |
| xmlstring.go | Save | 41-48 |
| xmlstring.go | XMLRoot | 62-77, 100-105, 117-140, 163-179 |
| xmlstring.go | XMLString | 13-23, 27-39, 41-48, 50-55, 57-60, 62-77, 79-83, 85-98, 100-105, 107-115, 117-140, 142-161, 163-178, 180-190, 201-206, 208-216 |

Not modelled: `collection.go`, `constants.go`, `eadapter.go`, `eannotation.go`, `eattribute.go`, `ecacheprovider.go`, `eclassifier.go`, `ecodec.go`, `ecorefactory.go`, `edatatype.go`, `edecoder.go`, `ediagnostic.go`, `ediagnostic_impl.go`, `eencoder.go`, `eenum.go`, `eenumliteral.go`, `efactory.go`, `egenerictype.go`, `eiterator.go`, `elockprovider.go`, `emap.go`, `enamedelement.go`, `enotificationchain.go`, `enotifier.go`, `enotifier_impl.go`, `enotifyinglist.go`, `eobject.go`, `eobjectidmanager.go`, `eobjectlist.go`, `eoperation.go`, `epackage.go`, `epackageregistry.go`, `eparameter.go`, `ereference.go`, `eresource.go`, `eresourcelistener.go`, `eresourseset.go`, `estoreeobject.go`, `estringtostringmapentry.go`, `estructuralfeature.go`, `etypedelement.go`, `etypeparameter.go`, `euriconverter.go`, `eurihandler.go`, `nocodec.go`, `nodecoder.go`, `noencoder.go`, `sqlequal.go`, `ulid.go`, `uuid.go`, `xmicodec.go`; the mocks and tests; the code generated from the ecore model (`*_impl.go` of the metamodel); logging, tracing and error texts; the Go runtime (memory, scheduling inside a step), the SQL engine beyond rows in tables, and the third party codecs (msgpack, JSON).

## 5. Findings

Proved negations: executions of the model of the code for which a property is false.

* `C01_addAll_live_violated`: **C01 violated (2)**, if the external set iterator is the one of gods (stops at the current size): on the unique list [0,2,8,9], `AddAll([0,1,2])` adds 2 a second time.
* `C01_move_past_end_violated`: **C01 violated (1)**: on the unique list [0,1,2,3], `RemoveRange(0,2)` followed by `Move(1,2)` (which panics) leaves the list [2,2]: the stale third slot was shifted in before the panic.
* `C02_move_object_violated`: **C02 violated** for `MoveObject` and `Move` past the end: the call panics but the contents changed (one element lost, another shifted in from the spare capacity).
* `C03_move_to_size_violated`: **C03 violated**: `Move(0, size)` is not refused by the bounds check; it panics later, and with spare capacity the contents have been changed by then.
* `C06_move_past_end_violated`: **C06 violated** for a move past the end with spare capacity: the contents change (and the call panics) without any notification.
* `C07_across_addition_violated`: **C07 violated**: a removal is merged into an earlier one although an addition to the same list lies between them, so that the dispatched notifications no longer describe the change.
* `C07_list_set_violated`: **C07 violated**: two SET notifications at different positions of the same list are merged into one, which describes neither change.
* `C07_third_removal_violated`: **C07 violated**: removing the elements of [10,11,12] from the last to the first (positions 2, 1, 0) and merging the three notifications yields three removed values but only two positions.
* `C100_bytes_violated`: an ID of a type of bytes can be given but not read: no object after it in the resource is found any more, whatever its ID
* `C100_empty_violated`: without an ID: an object that has none is found by the empty one
* `C100_invalid_violated`: any text that begins with a letter gives an object with an ID of a type of integers the ID 0: all such objects have the same one, and are not found by what they were given
* `C100_manager_violated`: with the ID manager: if the ID the object then has is another text than the one that was given, the object is found by the latter, and by its ID, which is what its URI has, it is not
* `C100_number_violated`: two texts of the same number: an object given the one or the other is not found by at least one of them
* `C101_panic_violated`: the ID `?`: reading a reference to the object panics
* `C101_question_violated`: an ID with a question mark at the end and another one before: the reference is read as one to an object that has the text before the latter as its ID, which is another one
* `C101_slash_violated`: an ID with a slash in front is looked up as a path: what the reference gets does not depend on the IDs
* `C101_space_violated`: an ID with a space: a reference to the object is never read as the object, whatever other objects there are
* `C102_container_violated`: **C102** is violated: `EncodeObject` of an object writes its container with its values and its other children, if they are in no resource; what is read is contained in a copy of the container.
* `C102_embedded_violated`: **C102** is violated: an object of another resource is written with its values if it is referred to without resolution of proxies; what is read is an object with these values that nothing contains.
* `C102_unattached_violated`: **C102** is violated: an object that is in no resource is written with its values if it is referred to; no error is reported.
* `C103_mixed_violated`: In the same resource, with IDs: a reference to an object that comes later in the document is one to the original, a reference to an object that comes before is one to the copy; and the IDs lead to the copies.
* `C103_originals_violated`: In the resource of the original itself, without IDs, or any resource where the paths lead to these objects: the references of the new objects are exactly those of the originals. No reference is to a new object, also where the original refers to an object of its own tree, or itself.
* `C103_panic_violated`: With deferred resolution, an object that refers to itself after a reference that is not found: the decoder panics, the position is past the end of the list. Here the document is that of object 0 alone, the object 1 is not in it.
* `C103_root_violated`: With deferred attachment of the root there is no result and no error: the object is added to the contents of the resource.
* `C103_taken_violated`: In a resource with an ID manager, the objects read get the IDs of the elements: IDs that led to the originals lead to objects that are not in the resource.
* `C103_unattached_violated`: An object that is not in the resource: none of its references is read, each of them is an error.
* `C104_class_violated`: Violated: with a class that has the features in another order, key and value are exchanged.
* `C104_moved_violated`: Violated: a feature put in front of the others, and the key is lost and the value has become what the key was.
* `C104_removed_violated`: Violated, for all classes and entries: an entry whose key feature is taken out of its class panics, although the class may have another feature "key".
* `C104_renamed_violated`: Violated: after another feature of the class is the one called "key", `GetKey` still is the one that was.
* `C105_after_get_violated`: Violated: after one `Get` that fails, nothing is stored any more in the table, for any object and feature of it, although the database works, and without any sign of it: `Set` and `UnSet` are as before.
* `C105_after_set_violated`: Violated: after one `Set` that fails, `Get` of any feature of the table gives an error as the value, for any object and whatever is done, although the database works.
* `C105_get_violated`: Violated, in all states: `Get` gives the error of the database as the value of the feature.
* `C106_encoding_violated`: Contrary to the claim, the encoding is declared but the text is written in UTF-8 all the same: with an encoding of one byte for each character, no text with a character outside ASCII is read again.
* `C106_spaces_violated`: Contrary to the claim, spaces around the equals sign, which XML allows, hide the encoding: such a document in ISO-8859-1 is an error, or has no encoding.
* `C106_version_violated`: Contrary to the claim, a document written with any other version than 1.0 cannot be read.
* `C107_absent_violated`: Contrary to the claim, the new container need not have the object: its values are not looked at nor changed.
* `C107_first_violated`: Contrary to the claim, an object in the first feature of its container, without a container reference, tells that the feature -1 was resolved, which no class has: for every such object that is observed.
* `C108_addAll_violated`: Violated: an `AddAll` may stop after any number of values, and the values before stay.
* `C108_after_violated`: Violated: after one call that fails, no list of the table changes any more, whatever is called and although the database works.
* `C108_answers_violated`: Violated, in all states: an error of the database is an answer like others. `IndexOf` says that the value is the first one, also for an empty list; `Contains` says that it is not there; `Size` that there are no values, and `IsEmpty` too; `Get` gives the error as the value; `Remove` gives nil.
* `C108_reads_violated`: Violated: after one call that could not write, no list of the table can be read any more, whatever is called and although the database works: `Get` gives the error as the value, all lists seem to be empty.
* `C109_again_violated`: A data type of which `InitEDataType` says last that it has no default value: it keeps the one that was said before.
* `C109_opposite_violated`: One call with an opposite is not enough to make two references opposites: the other end has none.
* `C10_entry_setValue_violated`: **C10 violated (2)**: after a lookup, `SetValue` on an entry of the map changes the entry but not the answer of `GetValue`.
* `C10_same_key_violated`: **C10 violated (1)**: two entries with the same key are accepted by the list; removing one of them makes the key invisible to lookups although the other entry is still in the map.
* `C110_negative_violated`: Violated: a negative number, in any form, is accepted without an error, and the object has no ID afterwards.
* `C110_unsigned_violated`: Violated: an unsigned number that no int64 can hold is accepted without an error, and the object has no ID afterwards. The text of the same number is an error.
* `C111_foreign_violated`: Violated: the factory of Ecore does not look at the package. For every class of another package, abstract or not, that has the ID of a class of Ecore that is not abstract, it creates an object of the class of Ecore, and never one of the class it is asked for.
* `C11_address_reuse_violated`: **C11 violated (3)**: the kept ID is remembered by address, so an object allocated at the address of an unregistered and collected one gets its ID (here objects 0 and 1 have the same address).
* `C11_attribute_changed_violated`: **C11 violated (4)**: with IDs in attributes, registering an object again after its attribute changed leaves the old ID in the lookup table.
* `C11_detached_id_violated`: **C11 violated (2)**: the ID kept for an unregistered object can be given to another one, and both have it after the first is registered again.
* `C11_shared_id_violated`: **C11 violated (1)**: `SetID` accepts the ID of another object; both then have it, and unregistering the first one makes the second one unreachable by its ID.
* `C14_cycle_violated`: C14, violated: classes 0 and 1 contain each other, and 1 contains 2. The transition from 1 to 0 is dropped when it is met before the one to 2.
* `C14_start_class_violated`: C14, violated: folders in a folder, the class of the object itself is asked for.
* `C14_subclass_violated`: C14, violated: an object whose class is a subclass of the type of the reference that holds it is given although it is of another class, and one of the class asked for is missed in a reference of a more general type.
* `C14_unset_violated`: C14, violated: the reference picked first is unset (no people), the shelves are never looked at.
* `C15_get_negative_violated`: **C15 violated**: `Get` of a negative index does not panic but yields the first object.
* `C16_nul_violated`: With a rune 0 in the path, normalisation loses text: the path `a\0b/.` becomes `a/`.
* `C17_directory_violated`: Target equal to the directory of the base.
* `C17_dot_base_violated`: Base ending with a dot segment: `/a/b/..` is the directory `/a/`, the target `/a/c` comes back as `/a/b/c`.
* `C17_port_violated`: Two ports are not told apart: the target on port 81 comes back on port 80.
* `C17_relative_violated`: Relative URIs: the target `c/d` comes back as `a/c/d`.
* `C17_same_path_violated`: Target equal to the base: the relative URI is empty, hence opaque, and Resolve returns it unchanged.
* `C18_made_violated`: A path made with a colon is later returned for the text of a URI with a scheme: the result of ParseURI depends on history.
* `C18_trim_violated`: TrimFragment of a URI with an escape makes a cache entry under the text of another URI: ParseURI of this text then answers with a path it does not have.
* `C19_inheritance_violated`: **C19** is violated with several super classes: an object added to the second list has the first one as its containing feature, and stays in the second one when it is added to another object.
* `C19_unset_list_violated`: **C19** is violated: after `EUnset` of a list the objects still have their container and can be seen from no list.
* `C20_inheritance_violated`: **C20** is violated with several super classes: the other end of list 2 is list 0.
* `C20_self_violated`: **C20**: a reference that is its own opposite: an object added to its own list is there twice.
* `C20_unset_list_violated`: **C20** is violated: `EUnset` of a list leaves the other ends.
* `C21_isProxy_violated`: **C21** is violated: an object whose proxy URI was set to nil still is a proxy.
* `C21_properties_violated`: **C21** is violated: setting the container forgets that properties are stored, and the next read of another field panics.
* `C22_contents_violated`: An object of the contents of a resource that is also contained by an object of this resource, through a reference which resolves proxies, is written as a proxy only: its values are lost.
* `C22_name_violated`: What is written of a feature with an empty name is not read.
* `C22_proxy_violated`: A proxy that is reached through a reference which does not resolve proxies is read as an object that is no proxy.
* `C22_uri_violated`: An object of a resource without URI is read as an object without values that is no proxy.
* `C23_order_violated`: C23 is violated: the object 2 has already added itself to the list.
* `C24_shadowed_prefix_violated`: **C24, finding**: getPrefix may answer a prefix which an inner element has bound to another URI.
* `C24_sibling_violated`: **C24 violated (1)**: a declaration in the second of two sibling elements panics (`<r><x xmlns:a=".."/><y xmlns:b=".."/></r>`).
* `C24_stale_violated`: **C24 violated (2)**: with two declarations in the first sibling there is no panic, but the new prefix is not found and the old one, which is out of scope, still is.
* `C25_content_violated`: **C25** is violated: content is not escaped; the tag it contains is never closed.
* `C25_unnamed_violated`: **C25** is violated: `saveFeatures` ends an element without name that has no features with `endEmptyElement`, which writes the end of a tag that was never started.
* `C26_feature_violated`: C26 does not hold for a single feature whose name has a dot and ends with a digit: the lookup panics.
* `C26_id_violated`: C26 does not hold for IDs: an ID that begins with a slash is taken for a path, the ID "?" panics, an ID is cut at a question mark.
* `C26_manager_violated`: C26 does not hold for a resource with an ID manager whose objects have ID attributes: the fragment is the attribute, which the manager is asked for.
* `C27_annotation_violated`: C27 does not hold for annotations: looking up the segment of the first annotation of its source panics, whatever the source is.
* `C27_at_violated`: C27 does not hold for names beginning with `@`: the segment is taken for the name of a feature and the lookup panics.
* `C27_escaped_violated`: C27 does not hold for names with characters that are escaped: a class named "a b" is not found.
* `C27_number_violated`: C27 does not hold for names with a dot and a number: the segment of "a.1" leads to the second class named "a".
* `C28_notification_violated`: **C28 violated (2)**: a decoder which leaves the resource not loaded (it clears the contents): the observer is told last that the resource is loaded.
* `C28_stale_list_violated`: **C28 violated (1)**: after `Unload`, an addition to the list obtained before marks the resource as loaded although it is empty.
* `C31_add_all_violated`: C31, violated: object 1 contains 3 and 3 contains 4. `AddAll` of 3 and 4 to another object takes 3 from 1 and 4 from 3. The adapter leaves 3, so it does not hear that 4 leaves 3 and stays attached to 4.
* `C31_embedded_violated`: C31, violated: an adapter that is part of another one looks for itself instead of the attached one. Object 1 of resource 0 contains 3, which also is in the contents of resource 9; the adapter is attached to the resource set 8. When 3 leaves resource 9, the adapter is removed from it although 1 still contains it.
* `C32_all_violated`: C32, violated: an object given to `CopyAll` together with an object it contains. The contained object 2 is copied twice, 6 and 7, and 6 in the copy of its container has lost its references: they went to the other copy.
* `C32_container_violated`: C32, violated: the contained objects of a copy of a dynamic object have no container, and are not equal to the originals that have a container reference.
* `C32_immutable_violated`: C32, violated: the containment list of the copy of a dynamic object cannot be changed any more.
* `C32_inherited_violated`: C32, violated: inherited references are not copied (`Equals` does not see it).
* `C32_outside_violated`: C32, violated: references with an opposite to objects outside of the tree are left out.
* `C32_root_violated`: C32, violated: a contained object that has a container reference is not equal to its copy.
* `C32_shared_violated`: C32, violated: copies of dynamic objects share their lists of values with the originals: adding an element to the list of the copy changes the original.
* `C33_inherited_violated`: C33, violated: a difference in an inherited attribute is not seen.
* `C33_transitive_violated`: C33, violated: `Equals` is not transitive. Two nodes point to each other, a third one points to the first.
* `C35_containment_changed_violated`: C35 fails when a reference becomes a containment reference after the list of all containments has been read.
* `C35_cross_references_violated`: C35 fails for `GetEAllCrossReferences`: class 0 with the cross reference 10; after the list has been read, the cross reference 11 is added and the list still is that of before.
* `C35_proxy_super_type_violated`: C35 fails with a super type which is an unresolved proxy: reading a derived list never returns.
* `C37_move_violated`: A move past the end panics with and without cache; with it, the elements of the cache have changed before, and differ from those of the store.
* `C37_proxy_violated`: With proxies, the position of an object depends on the cache: without it, an object is found before a proxy for it is; with it, the first element that is the object or a proxy for it is found.
* `C37_store_violated`: A list that is given another store keeps its size: `Size` is not the number of elements of the store, and with a cache the elements are those of the store before.
* `C38_head_violated`: **C38** is violated: three values inserted at the head of a list whose head was inserted before.
* `C38_middle_violated`: **C38** is violated: two values inserted before the last one of two come out in front.
* `C38_precision_violated`: **C38** is violated: after 53 insertions at the same place, the numbers of two values are the same, so that their order is not defined.
* `C39_reads_violated`: **C39** is violated: a write overtakes a read that was called before, because it only waits for the second read.
* `C39_timeout_violated`: **C39** is violated: after the time limit an operation is executed before the previous one.
* `C39_whole_violated`: **C39** is violated: a write of a feature overtakes the deregistration of its object.
* `C40_container_violated`: **C40** is violated: while `SetContainer` of the container 1 of another object is pending, `Get` of the name of 1 returns 1 itself.
* `C40_default_violated`: **C40** is violated: a feature set to its default value is set while the write is pending, and not set afterwards.
* `C40_reference_violated`: **C40** is violated: object 1 has the name "a"; while the write that makes it the value of a reference of object 2 is pending, `Get` of its name returns the object itself.
* `C40_root_violated`: **C40** is violated: while `AddRoot` is pending, `Get` of every feature returns nil.
* `C40_unset_violated`: **C40** is violated: a feature of type int is set after `UnSet`: its column holds an int64, its default value is an int.
* `C41_blocked_violated`: **C41** is violated, in every execution: after a write has been given up because of a failure of a previous one, no later call for the same object feature, for the object or for the store is ever executed.
* `C41_panic_violated`: **C41** is violated: the same after a panic, without another call pending.
* `C41_refused_violated`: **C41** is violated: after the failure of a write with another one pending, later calls are given up, and `WaitOperations` returns an error.
* `C42_loading_violated`: **C42** is violated: a document that declares a prefix in three elements is never read.
* `C42_saving_violated`: **C42** is violated: with three packages that want the same prefix, saving never ends.
* `C43_abstract_violated`: An object that cannot be created because its class is abstract is lost without an error, and what follows is given to the wrong object.
* `C43_inside_violated`: **C43** is violated: the content of an unknown element is given to the enclosing object.
* `C43_lost_violated`: **C43** is violated: after an unknown element of the root object, its elements are not read.
* `C43_root_violated`: With a root element of an unknown package, the element inside becomes a root object.
* `C43_sibling_violated`: **C43** is violated: after an unknown element, the name of the inner object is given to the outer one.
* `C44_bytes_violated`: Byte arrays of dynamic packages can be created from a text, but are not converted to one; bytes and dates neither.
* `C44_precision_violated`: A date with a fraction of a millisecond is read as another instant.
* `C44_zone_violated`: A date that is not in UTC is read as another instant, whatever the date is.
* `C45_concurrent_close_violated`: **C45 violated**: two concurrent calls of Close can both close the channel, which panics: the flag is read and stored in two steps.
* `C46_clear_violated`: **C46 violated (1)**: after `Clear` of the adapter list the adapter still has its target.
* `C46_self_removal_violated`: **C46 violated (4)**: an adapter which removes itself when notified hides the notification from its successor.
* `C46_set_violated`: **C46 violated (2)**: `Set` gives no target to the new adapter and leaves the one of the old adapter.
* `C46_twice_violated`: **C46 violated (3)**: an adapter added twice and removed once is still attached but has no target.
* `C47_host_violated`: The host of the replacement is ignored: mapping `http://a/x` to `http://b/y` leads to `http://a/y`.
* `C47_loop_violated`: A map with the single rule `p` to `pp`: Normalize of `p` never returns.
* `C48_diamond_violated`: C48 fails: an operation inherited twice (class 3 of super types 1 and 2, both of super type 0) overrides itself.
* `C48_hang_violated`: C48 fails: a class with an own and an inherited operation never answers, since the map is built with the mutex of the class locked and the super types of the class are asked for with the mutex locked again.
* `C49_addAll_index_violated`: **C49 violated**: `AddAll([7])` on the list [5] reports the addition at index 0.
* `C50_panic_violated`: `http://bob@h/`: the host `h` is found in `http`, Authority slices backwards and panics.
* `C50_wrong_violated`: `http://t:80/`: Authority returns a piece of the scheme.
* `C51_renamed_violated`: C51 fails after a renaming: feature 10 is not found by its new name and is still found by its former one.
* `C52_modification_violated`: Class 1 has super type 0. One goroutine reads a derived list of class 1 (not cached) while another one modifies a feature of class 0: the first one has locked 1 and wants 0, the second one has locked 0 and wants 1.
* `C53_nil_violated`: **C53** is violated: a document with a nil element only uses `xsi` without declaring it.
* `C56_opposite_violated`: **C56** is violated: an object contained through a reference with an opposite; the result is the container reference, which is no containment.
* `C57_empty_violated`: An empty text for a byte gives a string, and this value is not converted to text.
* `C57_number_violated`: Text that is no value is not reported: numbers that are out of range are moved into it, other text is zero, false, or the first day of the year 1.
* `C58_break_violated`: **C58** is violated, in every case: after a read of a table fails, for example because the user stops an iteration, the next statement that changes the table is never executed; and then no statement that changes the database is executed any more.
* `C58_failed_violated`: **C58** is violated, in every case: after a statement that changes the database failed, no such statement called later is ever executed, and no read of its tables.
* `C58_nested_violated`: **C58** is violated: if the result function of a read executes statements, as when objects of a list are created, and other goroutines write at the same time, all of them wait for ever.
* `C58_readers_violated`: **C58** is violated: a table is changed while a statement called before reads it.
* `C58_script_violated`: **C58** is violated: a read does not wait for the creation of the table together with an index.
* `C58_twice_violated`: **C58** is violated: a call that changes a table twice waits for itself.
* `C59_containers_violated`: When containers are saved too, the IDs are not loaded.
* `C59_contents_violated`: Only the first content of a resource is saved.
* `C59_date_violated`: The fraction of a second of a time is lost.
* `C59_default_violated`: An attribute that is not set, with the default value 5, is loaded as set, with the value 0.
* `C59_id_violated`: An object without ID gets the ID `<nil>`, which is no number: loading fails.
* `C59_idx_violated`: A resource with a list named `idx` cannot be saved.
* `C59_names_violated`: Two classes whose names are the same but for the case cannot be saved.
* `C59_nan_violated`: A floating point number that is not a number is loaded as zero.
* `C59_proxy_violated`: Objects that are proxies are saved like any others: the URI is not in the database, and whatever is loaded is the same whether they are proxies or not.
* `C59_uri_violated`: An object with the URI `/12` that is not saved is loaded, for a resource `/`, as the object with the number 12: loading fails, or the reference is to another object.
* `C60_empty_violated`: An empty list that is set is read as the list of the root: the root refers to itself, or even contains itself.
* `C60_eobject_violated`: An object contained by a feature of type `EObject` loses its class.
* `C60_href_violated`: An attribute whose name is `href` makes the object a proxy.
* `C60_ids_violated`: References are written with the ID attribute, and read with the IDs of the manager: they are not resolved.
* `C60_manager_violated`: References are written with the IDs of the manager, even if these are not written: they are not resolved.
* `C60_markup_violated`: Contents are not escaped: markup makes the document unreadable.
* `C60_nil_reference_violated`: A nil value of a reference is read as an object.
* `C60_nil_violated`: A nil value of an attribute is read as the value of the empty text.
* `C60_nils_violated`: The same in a list.
* `C60_order_violated`: A reference list with an object that has been read and one that has not yet been read changes its order.
* `C60_prefix_violated`: … and so does a package whose prefix is `href`.
* `C60_reference_violated`: References to an object whose ID has markup, and URIs with markup, make the document unreadable.
* `C60_return_violated`: … and carriage returns become line feeds.
* `C60_roots_violated`: Only the first of two roots is saved.
* `C60_space_violated`: References to an object whose ID has a space are not resolved.
* `C62_package_violated`: the resource of a package, asked for once more, is read from its URI
* `C62_removed_violated`: a resource is removed from the set, and is still answered
* `C62_renamed_violated`: the resource of URI 1 is renamed, and is still answered for its old URI; there is no resource with this URI
* `C62_unnamed_violated`: a resource without URI in the set: no other resource is ever answered
* `C63_cycle_violated`: proxies that stand for each other: reading one of them never ends
* `C64_addAll_violated`: a proxy that is in the list is added again by `AddAll` (`Add` refuses it)
* `C64_add_violated`: a proxy of an object of the list is added, and the list shows the object twice
* `C64_removeAll_violated`: a proxy that is in the list is removed by `RemoveAll` or not, depending on the order of the objects to remove
* `C64_removed_violated`: `RemoveAt` gives the proxy, not the object that the list shows
* `C65_adopt_violated`: a list that is made over the array of another one changes with it
* `C65_array_violated`: `for _, e := range list.ToArray() { list.Remove(e) }` leaves an element: what is removed is moved in the array
* `C65_foreign_violated`: an array also changes when its list is inserted in another one after it got shorter: it has elements of the other list
* `C65_insertAll_violated`: inserting an array of a list in a second list changes an element of the first one
* `C65_told_violated`: a list that is inserted in itself tells that the whole result has been inserted
* `C66_attach_violated`: a value that is set before there is a store is not put in the store, and lost without cache
* `C66_container_violated`: a container that has not been read is lost when the store is taken away
* `C66_detach_violated`: with a cache, a value that has not been read is lost when the store is taken away
* `C66_isSet_violated`: a list without elements that has been read counts as set
* `C66_list_violated`: after a switch of the cache the list of a feature is another object: two lists with a cache each for the same values
* `C66_switch_violated`: with a cache, the value of the old store is shown after the store has been changed; without, that of the new one; the store does not get the value
* `C66_transient_violated`: a transient value is lost when the cache is switched, and when a store is given
* `C67_classifierID_violated`: **C67** is violated: once asked, the ID of a classifier stays, although another classifier is inserted before it; then two classifiers have the same ID.
* `C67_default_violated`: **C67** is violated: a feature whose default was asked keeps the value when it is given another type.
* `C67_deliver_violated`: **C67** is violated: a classifier added while the package delivers no notifications is not found, even after delivery is switched on again.
* `C67_leftover_violated`: **C67** is violated: the default computed for an earlier text is given for a type that can not be converted.
* `C67_referenceType_violated`: **C67** is violated: once asked, the type of a reference stays, although the reference is given another type, or none.
* `C67_rename_violated`: **C67** is violated: a classifier that is renamed after a lookup is found under its old name and not under the new one.
* `C67_typeDefault_violated`: **C67** is violated: a data type whose default is asked before its instance type is set never has the default of the instance type.
* `C68_namespace_violated`: **C68** is violated: an annotation that is added after the namespace was asked is not seen.
* `C68_package_violated`: **C68** is violated: after a package was asked for its extended name, asking it for a type panics, and the other way round.
* `C68_rename_violated`: **C68** is violated: an element that is renamed after it was asked keeps its old name, and so do its namespace and the types of its package.
* `C68_replaced_violated`: **C68** is violated: a classifier that is taken from the package is still found, and the one that took its place is not.
* `C69_cycle_violated`: **C69** fails for a reference that knows no proxies and leads back: an object that refers to itself through one, without containing itself, is written for ever (jsoncodec.go:61-66, jsonencoder.go:129-132).
* `C69_homeless_violated`: **C69** fails for references to objects in no resource: whichever object of a class is referred to, the document is the same (jsonencoder.go:183-185).
* `C69_names_violated`: **C69** fails for a feature with the name of one of the keys: an attribute "eClass" is written next to the class, so the object has the key twice and a reader finds one of the two (jsonencoder.go:62, 114).
* `C69_nil_violated`: **C69** fails for a single reference that is set to nil: the encoder panics (jsonencoder.go:131, 143). `EIsSet` of a dynamic object with a default value, or of a store that was told nil, is true.
* `C69_nils_violated`: **C69** fails for nil values in a list of data: a list with a nil is written like the list without it (jsonencoder.go:122-125), so the positions of the others are lost.
* `C69_roots_violated`: **C69** fails for the other roots of a resource: whatever they are, they are not written (jsonencoder.go:35-39).
* `C70_cycle_violated`: **C70** is violated: nothing prevents two objects from containing each other, and then `IsAncestor` of any other object has no end.
* `C70_family_violated`: The hypotheses of `C70_opposite_violated` are met by the simplest of trees.
* `C70_nil_violated`: **C70** is violated: nil is an ancestor of every object whose containers come to an end.
* `C70_opposite_violated`: **C70** is violated: `Remove` of an object contained through a reference with an opposite panics whenever the class of the container does not have the opposite too: `EContainmentFeature` is the wrong one of the two (see C56), and it is unset in the container.
* `C70_parent_violated`: **C70** is violated: when the class of the container has the opposite too it is the container that is taken out of its own container, and the object stays: with 2 in 1 and 3 in 2, `Remove(3)` removes 2.
* `C71_missing_violated`: **C71** is violated: a path that leads nowhere is no nil but a panic: looking for the class "b" of a package.
* `C71_root_violated`: **C71** is violated: the URI of a root without ID is "//", and looking it up in a resource the root is put in panics.
* `C71_self_violated`: **C71** is violated: the path of an object relative to itself is empty, and looking it up panics, whatever the object is.
* `C72_inheritance_violated`: **C72** is violated with several super classes: both references of an object change, and only one notification comes; and the change of the second one is announced with the ID of the first one, which has not changed.
* `C72_positions_violated`: **C72** is violated for an observer that uses positions: three children go to another object, the last one first. The three are announced with two positions only.
* `C73_default_violated`: After the type of an attribute is changed to another data type of the same factory its default value is still the one of the old type, when it was read before: it is not the conversion of the literal by the type.
* `C73_isset_violated`: A literal which only has a name shows the name as its literal, and its literal is said not to be set; the computed lists of a class and the ID of a classifier are said not to be set until they are read.
* `C73_notify_violated`: The adapters of a feature are not told of a new feature ID; those of a classifier are told of another feature than the instance type name.
* `C73_panic_violated`: `ESet` of the instance class with `nil`, the value `EGet` returns on a new classifier, panics; so does `EUnset` of the default value of a new attribute, and `EGet` of its type.
* `C73_referenceType_violated`: After the type of a reference is changed the reference type is still the old one, when it was read before.
* `C73_removed_violated`: An annotation that was given an element and whose element was unset: `EGet` and `EIsSet` of the element panic.
* `C73_self_violated`: Giving back to a list feature the list it returned empties it, whatever it held.
* `C73_unchangeable_violated`: `ESet` and `EUnset` of a declared feature that may not be changed never return: the method calls itself until the stack overflows.
* `C74_details_removed_violated`: Removing it from the first takes its container away although the second has it still.
* `C74_details_violated`: The entry is then in the details of both, with the second as its container.
* `C74_factory_violated`: A factory replaced by `SetEFactoryInstance` panics when asked for its package; replaced by `SetEPackage` of the new factory it answers `nil`.
* `C74_removed_violated`: Whenever an element has been removed from a feature it knows the other side of, asking it for its owner panics although it should answer that there is none.
* `C75_factory_violated`: **C75 violated (1)**: when the factory makes the entries that the library provides, `Put` of a new key panics, whatever the map.
* `C75_removeRange_violated`: **C75 violated (2)**: without a cache `RemoveRange` panics after it has removed the first entry from the store, and does not release the list: the next calls never return.
* `C75_store_violated`: **C75 violated (3)**: a map that is given another store after a lookup goes on answering with the entries of the first.
* `C75_toMap_violated`: **C75 violated (5)**: what the caller writes to the Go map that `ToMap` gives is found by lookups until the cache is switched, and no entry has it.
* `C75_unique_violated`: **C75 violated (4)**: when the feature is not unique, an entry can be twice in the map; once one of the two is removed, the key is not found though its entry is there.
* `C76_child_first_violated`: an object put into the store before the object that contains it has no container
* `C76_contains_violated`: asking whether a containment has an object puts the object into the store
* `C76_default_violated`: an attribute that never had a value is set, and reading it does not give the default value
* `C76_foreign_violated`: an object that has its SQL ID from another database is taken for the object of this one: its value is written there
* `C76_inherited_set_violated`: a value set to an inherited feature is lost
* `C76_inherited_violated`: **C76** without restriction to the features declared by the class is violated: whatever is in the store, an inherited feature is never read; `Get` gives no value, or a Go error in place of the value.
* `C76_multiple_violated`: the container of an object of a class with multiple inheritance is read with another feature: `encodeObject` writes the number the feature has in the class that declares it
* `C76_reference_violated`: a reference to an object that is not in the store is read as a proxy, even when the object has come into the store
* `C76_static_violated`: with static features, the container is read with another feature: `SetContainer` writes the number of the feature, reading adds the number of static features
* `C76_unregister_add_violated`: an unregistered object cannot become a root
* `C76_unregister_roots_violated`: an unregistered root is read as another object
* `C76_unregister_violated`: **C76** without restriction to objects that keep their SQL ID is violated: once such an object is unregistered, it has no value.
* `C77_cycle_violated`: A class that is among its own super types: one goroutine that stores its data waits for itself.
* `C77_early_violated`: The object 1 has its ID before its features are written: a second goroutine asked to store it is done while the object contained in it is not written.
* `C77_maps_violated`: The locks are one for each class, but the map of the data of the classes is the same for all: two goroutines write it at the same time, which ends the program (`fatal error: concurrent map writes`). So it is with the maps of the IDs of packages, classes and literals.
* `C77_readers_violated`: Two goroutines that read the object of the same row may be given two objects: nothing is locked between the question whether there is one and its making.
* `C78_case_violated`: Classes with names that differ in case (or of different packages) have the same table.
* `C78_column_violated`: A feature can have the name of the key, or of the position; or two features differ in case.
* `C78_empty_violated`: A feature without name ends in a panic.
* `C78_index_violated`: An index can have the name of another index, or of a table.
* `C78_injection_violated`: The name of a class can contain a statement: this one creates a table `t`, removes the table `b` and creates no table for the class.
* `C78_list_violated`: The table of a class can be the table of a list of another class.
* `C78_null_violated`: `NULL` is not found in a list that has it.
* `C78_space_violated`: A name with a space is read as a shorter name and a type.
* `C79_cross_violated`: An object that is in a container, by a reference that resolves proxies, and in the contents of the resource 1 gets IDs in both resources when its container is put in the resource 0, and the listeners of both are told that it is attached.
* `C79_cycle_violated`: Nothing keeps a program from putting an object in an object that is in it: `EResource()` of both then does not end.
* `C79_flag_violated`: An object put in a reference that does not resolve proxies, but whose opposite does, stays in the contents of the resource.
* `C79_late_violated`: A manager that is set after the objects are in the resource has no ID for them.
* `C79_reload_violated`: and it gets another ID when it is put in the contents again.
* `C79_replaced_violated`: An object, put by setting its container in the place of an object that it was in, is attached twice.
* `C79_same_violated`: An object which is in the contents of the resource, and also in a container, by a reference that resolves proxies, has no ID any more after the container is removed from the resource.
* `C79_unload_violated`: After `Unload`, `EResource()` of an object that was in the contents still is the resource, which no longer contains it.
* `C80_dangling_violated`: **C80** is violated: a reference to an object that is not there is reported for lists and references without opposite, but not for a single valued reference with a single valued opposite.
* `C80_deferred_violated`: **C80** is violated: with deferred references, a document with two lists that are opposites makes loading panic: nothing was added, and `MoveObject` does not find what it moves.
* `C80_one_end_violated`: **C80** is violated: a document that says at one end only that 1 is a friend of 0, an object that comes before, makes loading panic; if 1 says it instead, it is loaded.
* `C80_order_opposite_violated`: **C80** is violated: the same for the staff of 2, although 3 and 1 name 2 as their boss.
* `C80_order_violated`: **C80** is violated: 2 likes 3 and 1; loaded, it likes 1 and 3, as 1 is known when 2 is read, 3 not yet.
* `C80_proxy_panic_violated`: **C80** is violated: a proxy of the same document in a reference with a single valued opposite makes loading panic, if the object has no value for this opposite: `value.(EObject)` of nil (ecore/xmldecoder.go 715).
* `C80_proxy_violated`: **C80** is violated: 0 has the friend 1, which says so itself, and the foreign one 4, both also given by elements with `href`. The proxy 2 of 1 should be replaced by 1; it stays in the list beside 1, in front of it: `Remove` is called with a number (ecore/xmldecoder.go 701, 703) and removes nothing.
* `C80_self_ids_violated`: **C80** is violated with IDs, too: 2 is a friend of 1 and itself; loaded, of itself and 1.
* `C80_self_lost_violated`: **C80** is violated: an object without ID that is its own spouse has no spouse after loading, and no error is reported: both ends wait for the other one.
* `C80_self_violated`: **C80** is violated: 2 is a friend of 2, 1 and 0, in this order, itself being one; loaded, of 0, 2 and 1. The arguments of `Move` are the wrong way round (ecore/xmldecoder.go 484): the first friend is moved to the end, instead of 2 to the front.
* `C81_abstract_violated`: An object of an abstract class is a panic.
* `C81_changed_violated`: The full claim fails: a green node in place of a red one is not noticed.
* `C81_huge_violated`: A number of objects that is too large for the memory is a panic, even if the document ends there.
* `C81_literal_violated`: A literal that the enum does not have is a panic.
* `C81_name_violated`: The name of another feature with a single value is not noticed: its value is set in place of the other.
* `C81_number_violated`: A number of a package, of a class, of a feature that there is not, is a panic; a package, a class, a feature with a name that there is not are errors.
* `C81_reference_violated`: A reference to an object with a negative number is a panic, unless the number is -1.
* `C81_shape_violated`: The name of a feature with many values for the number of one with a single value is a panic.
* `C81_size_violated`: A negative number of objects is a panic.
* `C81_trailing_violated`: The full claim fails: whatever comes after an accepted document is not noticed.
* `C82_closed_violated`: **C82** is violated: after the store is closed, every call of a method panics, and its operation is registered and executed all the same.
* `C82_failure_violated`: **C82** is violated: `Close` returns when the function of one operation fails; a write of another object called before is lost.
* `C82_gives_up_violated`: **C82** is violated: after a function has panicked, or an operation has been given up, the next `Close` closes the store at once, whatever is being executed.
* `C82_later_violated`: **C82** is violated: `Serialize` also has a write called after it.
* `C82_lost_violated`: **C82** is violated: an operation that has not begun when the store is closed is never executed successfully.
* `C82_panic_violated`: **C82** is violated: a call that panicked a long time ago.
* `C82_second_violated`: **C82** is violated: a second call of `Close` returns although nothing has been executed.
* `C82_timeout_violated`: **C82** is violated: after the time limit `Serialize` does not wait for a write called before.
* `C82_window_violated`: **C82** is violated: a write called while `Close` is being executed, without panic, is lost too, because `Close` has already seen that there is nothing to wait for.
* `C83_again_violated`: **C83** is violated: after an error in the document the resource is loaded, it is not read again when the document is good.
* `C83_close_violated`: **C83** is violated: an error of `Close` of the file is not reported.
* `C83_codec_violated`: **C83** is violated, for every state: a resource without codec reports an error, but the document that was there is gone.
* `C83_destroyed_violated`: **C83** is violated: an XML document that was destroyed is loaded without error, as one without contents.
* `C83_failed_violated`: **C83** is violated: a `Save` that fails destroys the document that could be loaded before, with every codec.
* `C83_json_load_violated`: **C83** is violated, for every document: loading JSON panics.
* `C83_json_violated`: **C83** is violated, for every resource: saving as JSON never reports an error, whatever cannot be written.
* `C83_memory_violated`: **C83** is violated, for every state: saving to memory writes nothing, loading from it reads nothing, neither reports an error.
* `C83_roots_violated`: **C83** is violated: roots after the first one are not in XML and SQL documents, and no error is reported.
* `C83_stale_violated`: **C83** is violated: errors of an earlier call stay although nothing fails, without URI and in memory.
* `C83_temporary_violated`: **C83** is violated: without temporary file, saving to a SQL file panics and the document is gone.
* `C84_bracket_violated`: A bracketed host is cut at its first colon.
* `C84_case_violated`: The scheme of a parsed text is in lower case, the text of the URI is not: URIs with the same components are not equal.
* `C84_escape_violated`: Escapes are decoded when a URI is parsed and not written again: without its fragment, `a%3Fb#f` is read as a path and a query, `a%2541` names another path, and `a%25` cannot be read.
* `C84_file_violated`: Names of files with `?`, `#`, `%` or with a colon, and paths with `//`, are lost in the text of their URI.
* `C84_relativize_violated`: The relative URI of a file whose name has a colon is read as an absolute URI.
* `C84_resolve_violated`: A reference with three slashes, resolved, loses two of them in its text.
* `C84_slashes_violated`: Two slashes behind an empty authority: the first directory becomes the host.
* `C85_container_violated`: The claim fails: a store takes a database made without container columns for one with them; it can add nothing and find no container, and it says so in the properties.
* `C85_int_violated`: The claim fails: a version given as an `int` is asked for by the decoder and not written by the encoder; the document cannot be read with the options it was written with.
* `C85_lost_violated`: The claim fails: with `CONTAINER_ID` the column read by the decoder is the one of the containers, and all IDs are lost without an error.
* `C85_manager_violated`: The claim fails: a store with `OBJECT_ID` but without ID manager names a column that it does not make; no one with an ID manager can read the objects.
* `C85_name_violated`: The claim fails: a store with `OBJECT_ID` can neither read nor extend a database made by a store without, and after it stores without the option cannot either.
* `C85_nil_violated`: The claim fails: an object that has no ID is written with the text `<nil>`; the document cannot be read.
* `C85_null_violated`: The claim fails: objects added by a store without ID manager have no ID in the column of the IDs; a store whose manager does not take the empty text cannot read them.
* `C85_twice_violated`: The claim fails: a document cannot be written twice to the same database.
* `C85_unreadable_violated`: The claim fails: when the properties cannot be read the error is not reported; the store and the decoder panic instead.
* `C85_zero_violated`: The claim fails: a database of version 0 or below is opened whatever the version asked for, and the store changes its version.
* `C86_attached_violated`: **C86 violated (5)**: an observer attached by an observer is told the change which was made before it was attached: it saw the list [3] when it was attached and is then told that 3 was added at position 0.
* `C86_endless_violated`: **C86 violated (6)**: an observer that answers each change with another one never lets the call return: whatever the number of steps, the first `ESet` has not returned (in Go the goroutine's stack overflows, which ends the process).
* `C86_order_violated`: **C86 violated (1)**: the observer behind a reacting one is told the reaction before the change that caused it: after `Add(3)` it is told that 8 was added at position 2 of the list [4], which is no list it can have; all calls have returned.
* `C86_panic_violated`: **C86 violated (4)**: a reaction which panics makes the call of the user panic after the change was made, and the observers behind are never told it.
* `C86_transfer_violated`: **C86 violated (3)**: also the only observer of a notifier is told changes in the wrong order, when a child is moved to it from another one which has a reacting observer.
* `C86_value_violated`: **C86 violated (2)**: an observer behind one which corrects a value is left with the uncorrected one: the last it is told is that the value is 1, while the value is 2.
* `C87_abstract_violated`: If the type of the feature is an abstract class, nothing is loaded but a document root without value, and no error is reported.
* `C87_attribute_violated`: The value of a single-valued attribute of a document root is written outside of the root element, and lost.
* `C87_class_violated`: An object whose class is not the type of a feature of the document root is saved in an element with the name of its class, which is not found in the document root.
* `C87_exchanged_violated`: The extended name of a feature is the name of another, and the reverse: their values are exchanged, without error.
* `C87_namespaces_violated`: Two features with the same extended name in different namespaces: the values of both go to the first, without error.
* `C87_panic_violated`: An element that is an attribute of the document root: a document that is loaded, and that panics if document roots are suppressed.
* `C87_roots_violated`: A document root with two values is saved as a text with two root elements.
* `C87_subtype_violated`: A cover saved in an element named after the feature for pages is loaded as a page, and its colour is an error: no type is written in a root element.
* `C87_unqualified_violated`: A feature of the document root without namespace: the element has no namespace, no package is found, nothing is loaded.
* `C87_vacant_violated`: A document root without value is saved as a text without element, and loaded as nothing, without error.
* `C88_classes_violated`: The order of a list depends on which class is read first, which is the order of a map of Go.
* `C88_goroutines_violated`: Two goroutines that read both sides: an object is two times in a unique list, on both sides.
* `C88_order_violated`: The list on the other side is in the order of the objects that were read: an author has their books in another order.
* `C88_single_violated`: The same with a single value on one side: the book is two times in the list of the shelf.
* `C89_hash_violated`: In general: with `#` in its name, a database in memory is a file, the name of which is what comes before.
* `C89_name_violated`: A document named `b#1` is loaded in memory: the database is the file `b` of the working directory, which is replaced.
* `C89_panic_violated`: A document of less than 20 bytes is not an error but a panic, if it is loaded in memory.
* `C89_readers_violated`: Two documents with the same base name are loaded in memory: the first is loaded with the rows of the second.
* `C89_store_replaced_violated`: A document is loaded in memory while a store with the same base name is used: the file of the store is replaced by the document.
* `C89_stores_violated`: Two stores with the same base name, in memory: in the end the file of the first has the rows of the second.
* `C89_writers_violated`: Two resources are saved in memory at the same time: each document has rows of both, or the rows of the other are missing in one.
* `C90_added_feature_violated`: A feature added to a class of which an object exists: each access of it panics.
* `C90_contents_violated`: Contents asked before `SetEClass`: they lack the objects under the features of the new class, or asking them again panics.
* `C90_inherited_twice_violated`: A containment feature inherited twice (from a class which is super type of two super types): the contents are there twice.
* `C90_orphan_violated`: `SetEClass` to a class without the containment feature: the object is not found any more, but its container is still there, without a feature, and it cannot be put anywhere else.
* `C90_read_is_set_violated`: Reading the list of an unset feature makes it set.
* `C90_reflective_class_violated`: The same for the objects which are not resized: they panic once they were accessed before.
* `C90_reflective_super_types_violated`: Reflective objects: setting a feature of the second super type sets the one of the first super type.
* `C90_removed_feature_violated`: A feature removed from a class (or a super type given to it): the value of another feature is seen.
* `C90_setClass_violated`: `SetEClass` to a class which orders the features differently: each feature has the value of the other one.
* `C90_two_super_types_violated`: Two super types: an object in the containment list of the second one says it is under a feature of the first one. When it goes to another container it stays in the list, and the value of the feature of the first one is lost.
* `C91_isSet_violated`: An enumeration attribute that nobody gave a value is said to be set: NULL is compared with the default value.
* `C91_roots_violated`: One class that the packages do not have any more, and none of the roots is given, not even those of classes that are there.
* `C91_rows_violated`: A store that is opened on the database and stores an object of a class that the database knows gives the class and the package second numbers.
* `C91_twin_literals_violated`: Two literals with one text: an attribute that was given the second has the first at once.
* `C91_twin_packages_violated`: Two packages with one URI: an object of the first one has the class of the second one when the database is opened again, if there is one of this name, and is lost otherwise.
* `C91_two_databases_violated`: An ID manager that is used with a second database: the class is not written there, and the object is lost.
* `C91_unset_violated`: Unsetting an enumeration attribute writes the value of the default literal where the number of a literal belongs: the attribute then has the literal that happens to have this number: here it was green, is unset and is still green, and not the default value red.
* `C91_unset_zero_violated`: In general: when the default value is zero, as it is in enumerations that are numbered from zero, an attribute that is unset has no value any more, since no row has the number zero.
* `C92_array_violated`: Violated: writing into what `ToArray` gives changes the list, for every list and every place in it.
* `C92_entry_violated`: Violated: `SetValue` of an entry of the map changes the element, not what `GetValue` gives.
* `C92_extended_violated`: Violated: a list made by appending to what `ToArray` of another list gives is changed when the same is done once more.
* `C92_prefix_violated`: Violated: two lists made of a slice and a shorter piece of it; appending to what `ToArray` of the shorter one gives changes the longer one.
* `C92_slice_violated`: Violated: writing into the slice after it was given to `NewImmutableEList` changes the list.
* `C92_toMap_violated`: Violated: writing into what `ToMap` gives changes the map, and the elements of the map no longer fit.
* `C92_twice_violated`: Violated: of two entries with the same key only the last counts for `GetValue`, `ContainsValue` and `ToMap`, but `Size` and `Get` have both.
* `C93_both_violated`: The code does not meet the full property. After any program: an entry of a map that is added to another map or to a list is in both; the other place is its container.
* `C93_orphan_violated`: When such an entry is removed from the first map, it has no container, though it is in the other place.
* `C93_value_violated`: And a `Put` with its key in the other map, when that had no entry, gives the new value in the first map too.
* `C94_order_violated`: The code does not meet the full property: a resource that is in the set but not loaded is passed by; when a later one makes it load, its references stay as they are, though their objects exist. A second call resolves them.
* `C94_unload_violated`: And when a resource is unloaded and loaded again, the references of others that were objects of it stay; they are not objects of the resource any more.
* `C95_both_violated`: An object in the list of `a`, and a proxy for it in the list of `b`: after reading, both lists have the object, its container is `a`. When it is then removed from the list of `b`, the list of `a` still has it and it has no container.
* `C95_cycle_violated`: `b` is in `a` and has a proxy for `a`: after reading the list of `b`, `a` is inside itself, and asking for its resource does not end, however long one waits.
* `C95_taken_violated`: An object in the list of `a`, and a proxy for it as single reference of `b`: reading the reference of `b` takes the object out of the list of `a`.
* `C95_twice_violated`: A proxy for an object that is in the list is added: after reading, the list has the object twice.
* `C96_added_violated`: The operation 11 was added to class 0 when the program runs: invoking 20 now calls 21.
* `C96_dynamic_violated`: A dynamic object: no operation of its class does anything; nil is given back.
* `C96_eobject_violated`: The operations of `EObject` panic on each element of the Ecore model, although each has the methods.
* `C96_nil_violated`: nil may be given to the method for any object, but not by reflection: always a panic.
* `C96_two_supers_violated`: Two super types: the first operations of both have the same number, so that, whatever the code of the switch, invoking one does the same as invoking the other.
* `C97_add_violated`: The list has a proxy of an object: the object is refused by the list, but taken by its view; the list shows it twice then.
* `C97_store_violated`: A list with a store whose feature is not unique takes an object again; its view refuses it.
* `C98_embedded_violated`: C98, violated: an adapter that is part of another one never follows a proxy: whatever it is attached to, resolving changes nothing.
* `C98_removed_violated`: C98, violated: when the adapter is removed from an object, it is removed from what the proxies stand for, whose resources are loaded for that, and it stays attached to the proxies it is attached to. For every tree.
* `C98_resolved_violated`: C98, violated: an adapter that does not resolve proxies, the default, is not attached to the proxies there are when it is attached; when one of them is resolved it is not attached to the object either. So it misses every object that is not yet loaded when it is attached. For every tree.
* `C99_reference_violated`: so a reference from one of them to the other never goes to the resource that was loaded, or saved, in either direction
* `C99_set_violated`: without a resource set: any two documents, loaded or saved, are in different resource sets, and `GetResourceSet` gives neither of them
* `C99_twice_violated`: with a resource set: what is loaded for a URI another time is in a second resource, and no reference to the URI goes there, not even its own; all documents read from readers have the same URI, so this is the case for all of them but the first

## 6. Axioms of each theorem

From `#print axioms`.

* Classical.choice, Quot.sound, propext: `C01_unique_list_nodup_partial`, `C02_indexOf`, `C02_list_refines_sequence_partial`, `C03_move_partial`, `C06_replay_partial`, `C06_unchanged`, `C07_merge_many_removals_partial`, `C07_merge_two_removals`, `C09_answers`, `C09_containsValue`, `C09_entries`, `C100_bytes_violated`, `C100_given_partial`, `C100_invalid_violated`, `C100_managed_partial`, `C100_number_partial`, `C100_number_violated`, `C100_stable_partial`, `C100_text_partial`, `C101_question_violated`, `C102_complete_partial`, `C103_copy_partial`, `C103_originals_violated`, `C103_reported`, `C103_root_violated`, `C103_taken_violated`, `C103_unattached_violated`, `C104_names_partial`, `C104_pairs_partial`, `C105_origin`, `C106_ascii_partial`, `C106_declared_partial`, `C106_encoding_violated`, `C106_spaces_violated`, `C106_unknown`, `C106_utf8_partial`, `C106_version_violated`, `C107_absent_violated`, `C107_notes_partial`, `C107_resolved`, `C109_again_violated`, `C109_classifierID`, `C109_container`, `C109_elements`, `C109_foreign`, `C109_lists`, `C109_literal`, `C109_once_partial`, `C109_opposite_violated`, `C109_runs`, `C109_values`, `C10_lookups_agree_partial`, `C110_error`, `C110_load`, `C110_negative_violated`, `C110_nil`, `C110_others`, `C110_same`, `C110_set_partial`, `C110_unsigned_violated`, `C111_abstract`, `C111_dynamic`, `C11_attribute_changed_violated`, `C11_attribute_lookup_partial`, `C11_attribute_unregistered_partial`, `C11_distinct_partial`, `C11_incremental_partial`, `C11_keeps_id`, `C11_lookup`, `C12_fresh_ids`, `C12_given_complete`, `C14_complete_partial`, `C14_sound_partial`, `C14_terminates_partial`, `C15_queries_partial`, `C16_normal_form_partial`, `C16_segments_partial`, `C16_uri_partial`, `C17_directory_violated`, `C17_dot_base_violated`, `C17_port_violated`, `C17_relative_violated`, `C17_resolve_relativize_partial`, `C17_same_path_violated`, `C18_clean_partial`, `C18_made_violated`, `C18_trim_violated`, `C19_containment_partial`, `C19_unique_partial`, `C20_opposite_partial`, `C20_set_total_partial`, `C21_storage_partial`, `C22_complete_partial`, `C22_contents_violated`, `C22_object_partial`, `C22_roundtrip_partial`, `C23_order_partial`, `C24_before_pop_partial`, `C24_results_partial`, `C24_scoping_partial`, `C25_content_violated`, `C25_escaped`, `C25_nesting_partial`, `C25_text_partial`, `C25_unnamed_violated`, `C26_feature_violated`, `C26_id_violated`, `C26_manager_partial`, `C26_manager_violated`, `C26_path_partial`, `C27_annotation_partial`, `C27_annotation_violated`, `C27_at_violated`, `C27_escaped_violated`, `C27_feature_partial`, `C27_named_partial`, `C27_number_violated`, `C28_loaded_partial`, `C28_nonempty_partial`, `C28_notified_partial`, `C29_lookup`, `C31_add_all_violated`, `C31_content_partial`, `C31_total_partial`, `C32_all_equals_partial`, `C32_all_independent_partial`, `C32_all_separate`, `C32_equals_partial`, `C32_independent_partial`, `C32_separate`, `C33_deep_partial`, `C33_differences_partial`, `C33_equals_all_ends`, `C33_equals_all_partial`, `C33_equals_partial`, `C33_symmetric_partial`, `C33_transitive_partial`, `C34_feature_ids`, `C34_operation_ids`, `C35_lists_partial`, `C36_isSuperTypeOf`, `C37_cache_partial`, `C37_sequence_partial`, `C37_size_partial`, `C38_exact_partial`, `C38_head_violated`, `C38_middle_violated`, `C38_precision_violated`, `C38_rounded_partial`, `C39_next_partial`, `C39_write_first_partial`, `C40_get_partial`, `C40_isSet_partial`, `C41_blocked_violated`, `C41_executed_partial`, `C41_wait`, `C42_loading_terminates_partial`, `C42_saving_terminates_partial`, `C42_unique_partial`, `C44_date_partial`, `C44_dynamic_partial`, `C44_ecore_partial`, `C44_precision_violated`, `C44_zone_violated`, `C45_complete`, `C45_drains`, `C45_fifo`, `C45_never_blocks`, `C45_sequential_close`, `C46_removals`, `C46_targets_partial`, `C47_host_violated`, `C47_loop_violated`, `C47_result_partial`, `C47_schemes_partial`, `C47_shortening_partial`, `C48_hang_violated`, `C48_override_partial`, `C49_callbacks_bag_partial`, `C49_callbacks_replay_partial`, `C50_panic_violated`, `C50_wrong_violated`, `C51_from_name_partial`, `C53_declared_partial`, `C54_wait`, `C55_list_partial`, `C55_set_partial`, `C56_containment_feature_partial`, `C57_number_partial`, `C57_range_partial`, `C57_type_partial`, `C58_break_violated`, `C58_failed_violated`, `C58_progress_partial`, `C58_reads_partial`, `C58_write_after_read_partial`, `C58_writes`, `C59_roundtrip_partial`, `C60_empty_violated`, `C60_eobject_violated`, `C60_href_violated`, `C60_ids_violated`, `C60_manager_violated`, `C60_markup_violated`, `C60_nil_reference_violated`, `C60_nil_violated`, `C60_nils_violated`, `C60_order_violated`, `C60_prefix_violated`, `C60_reference_violated`, `C60_return_violated`, `C60_roots_violated`, `C60_roundtrip_partial`, `C60_space_violated`, `C61_effect`, `C61_member`, `C62_again_partial`, `C62_answer_partial`, `C62_ends_partial`, `C62_once_partial`, `C63_again_partial`, `C63_cycle_violated`, `C63_ends_partial`, `C63_resolve_partial`, `C64_reads`, `C64_view_partial`, `C65_array_partial`, `C65_lists_partial`, `C66_cache_partial`, `C66_container_partial`, `C66_values_partial`, `C67_answers_partial`, `C67_default_violated`, `C67_leftover_violated`, `C67_referenceType_violated`, `C67_typeDefault_violated`, `C68_answers_partial`, `C68_namespace_violated`, `C68_rename_violated`, `C68_replaced_violated`, `C69_names_violated`, `C69_nil_violated`, `C69_nils_violated`, `C69_readable_partial`, `C69_tells_partial`, `C69_written_partial`, `C70_family_violated`, `C70_nil_violated`, `C70_opposite_violated`, `C70_remove_partial`, `C71_missing_violated`, `C71_relative_partial`, `C71_root_violated`, `C71_uri_partial`, `C72_follow_partial`, `C72_join_partial`, `C73_default`, `C73_get_partial`, `C73_notify_partial`, `C73_resolve`, `C73_self_violated`, `C73_sequence_partial`, `C73_set_partial`, `C73_unchangeable_violated`, `C73_unset_partial`, `C74_effect_partial`, `C74_either_end`, `C74_factory_violated`, `C74_owner_partial`, `C74_place_partial`, `C74_removed_violated`, `C75_answers_partial`, `C75_entries_partial`, `C75_lookups_partial`, `C76_answers_partial`, `C76_identity`, `C76_unregister_partial`, `C77_complete`, `C77_ends`, `C77_once`, `C78_ask_partial`, `C78_case_violated`, `C78_change_partial`, `C78_column_violated`, `C78_create_partial`, `C78_different_partial`, `C78_empty_violated`, `C78_index_violated`, `C78_injection_violated`, `C78_list_violated`, `C78_names`, `C78_null_violated`, `C78_rows_partial`, `C78_space_violated`, `C78_system_partial`, `C79_ids_partial`, `C79_keeps_partial`, `C79_once_partial`, `C79_place_partial`, `C79_told_partial`, `C79_where_partial`, `C80_deferred_violated`, `C80_order_kept_partial`, `C80_order_opposite_violated`, `C80_order_partial`, `C80_order_violated`, `C80_restored_partial`, `C80_self_ids_violated`, `C80_self_lost_violated`, `C80_self_violated`, `C80_symmetric`, `C81_contents`, `C81_trailing_violated`, `C81_truncated_partial`, `C81_written_partial`, `C81_wrong_type_partial`, `C82_close_partial`, `C82_closed_violated`, `C82_failure_violated`, `C82_gives_up_violated`, `C82_lost_violated`, `C82_returns`, `C82_serialize`, `C82_serialize_complete`, `C82_window_violated`, `C84_bracket_violated`, `C84_built_partial`, `C84_case_violated`, `C84_clean_iff`, `C84_derived_partial`, `C84_escape_violated`, `C84_file_partial`, `C84_file_violated`, `C84_memory_partial`, `C84_parsed_partial`, `C84_relativize_violated`, `C84_resolve_violated`, `C84_slashes_violated`, `C85_container_violated`, `C85_document_partial`, `C85_int_violated`, `C85_kept_partial`, `C85_lost_violated`, `C85_manager_violated`, `C85_name_violated`, `C85_nil_violated`, `C85_null_violated`, `C85_twice_violated`, `C85_unreadable_violated`, `C85_version`, `C85_zero_violated`, `C86_first_partial`, `C86_once_partial`, `C87_object_partial`, `C87_plain_partial`, `C87_root_partial`, `C88_classes_violated`, `C88_ends_partial`, `C88_goroutines_partial`, `C88_members_partial`, `C88_order_partial`, `C88_order_violated`, `C89_hash_violated`, `C89_isolated_partial`, `C89_name_violated`, `C89_panic_violated`, `C89_readers_violated`, `C89_store_replaced_violated`, `C89_stores_violated`, `C89_writers_violated`, `C90_records_partial`, `C91_one_session_partial`, `C91_rows_partial`, `C91_sessions_partial`, `C91_unset_zero_violated`, `C92_array_violated`, `C92_entries_partial`, `C92_list_partial`, `C92_map_partial`, `C93_both_violated`, `C93_container_partial`, `C93_one_place_partial`, `C93_orphan_violated`, `C93_places_partial`, `C93_value_violated`, `C94_again_partial`, `C94_all_partial`, `C94_ends_partial`, `C95_container_partial`, `C95_cycle_violated`, `C95_places_partial`, `C95_read_partial`, `C95_resources_partial`, `C96_dynamic_foreign`, `C96_ecore_partial`, `C96_eobject_violated`, `C96_foreign`, `C96_invoke_partial`, `C96_nil_violated`, `C96_number_partial`, `C96_typed`, `C97_together_partial`, `C97_view_partial`, `C98_attached_partial`, `C98_followed_partial`, `C98_resolved_violated`, `C98_total_partial`, `C99_kept`, `C99_one_set_partial`, `C99_reference_violated`, `C99_set_violated`, `C99_shared_partial`, `C99_twice_violated`
* Quot.sound, propext: `C02_contains`, `C02_get`, `C04_binarySearch`, `C04_binarySearch_found`, `C05_all`, `C05_iterator`, `C05_iterator_complete`, `C06_silent`, `C07_across_addition_violated`, `C07_list_set_violated`, `C07_merge_set`, `C07_third_removal_violated`, `C08_chain`, `C08_chain_no_merge`, `C08_linked`, `C100_empty_violated`, `C100_found_partial`, `C100_manager_violated`, `C101_missing`, `C101_panic_violated`, `C101_restored_partial`, `C101_slash_violated`, `C101_space_violated`, `C102_container_violated`, `C102_embedded_violated`, `C102_object_partial`, `C102_resource_partial`, `C102_unattached_violated`, `C103_mixed_violated`, `C103_panic_violated`, `C104_removed_violated`, `C105_after_get_violated`, `C105_after_set_violated`, `C105_get_violated`, `C105_table_partial`, `C107_first_violated`, `C107_reference`, `C107_unchanged`, `C108_addAll_partial`, `C108_atomic_partial`, `C108_works_partial`, `C13_preorder`, `C14_cycle_violated`, `C14_start_class_violated`, `C14_subclass_violated`, `C14_unset_violated`, `C15_iterator`, `C19_inheritance_violated`, `C19_unset_list_violated`, `C20_inheritance_violated`, `C20_self_violated`, `C20_unset_list_violated`, `C21_isProxy_violated`, `C21_properties_violated`, `C22_name_violated`, `C22_proxy_violated`, `C22_uri_violated`, `C23_order_violated`, `C26_id_partial`, `C29_local`, `C30_codec`, `C32_all_violated`, `C32_container_violated`, `C32_immutable_violated`, `C32_inherited_violated`, `C32_outside_violated`, `C32_root_violated`, `C32_shared_violated`, `C33_inherited_violated`, `C33_transitive_violated`, `C35_containment_changed_violated`, `C35_cross_references_violated`, `C35_proxy_super_type_violated`, `C39_reads_violated`, `C39_timeout_violated`, `C39_whole_violated`, `C40_container_violated`, `C40_default_violated`, `C40_reference_violated`, `C40_root_violated`, `C40_unset_violated`, `C41_panic_violated`, `C41_refused_violated`, `C42_loading_violated`, `C42_recorded_partial`, `C42_saving_violated`, `C43_known_partial`, `C43_last_partial`, `C43_no_error_partial`, `C43_no_panic`, `C44_bytes_violated`, `C44_enum`, `C46_delivery`, `C48_diamond_violated`, `C50_authority_partial`, `C51_renamed_violated`, `C52_reads_partial`, `C56_opposite_violated`, `C57_empty_violated`, `C58_nested_violated`, `C58_twice_violated`, `C59_containers_violated`, `C59_contents_violated`, `C59_date_violated`, `C59_default_violated`, `C59_id_violated`, `C59_idx_violated`, `C59_names_violated`, `C59_nan_violated`, `C59_proxy_violated`, `C59_uri_violated`, `C62_package_violated`, `C62_removed_violated`, `C62_renamed_violated`, `C62_unnamed_violated`, `C67_classifierID_violated`, `C67_deliver_violated`, `C67_literals`, `C67_rename_violated`, `C68_package_violated`, `C69_cycle_violated`, `C69_homeless_violated`, `C69_roots_violated`, `C70_cycle_violated`, `C70_getAncestor_partial`, `C70_isAncestor_partial`, `C70_parent_violated`, `C71_self_violated`, `C72_inheritance_violated`, `C72_positions_violated`, `C73_default_violated`, `C73_isset_partial`, `C73_isset_violated`, `C73_notify_violated`, `C73_panic_violated`, `C73_read_partial`, `C73_referenceType_violated`, `C73_removed_violated`, `C73_undeclared`, `C74_details_removed_violated`, `C74_details_violated`, `C75_factory_violated`, `C76_child_first_violated`, `C76_contains_violated`, `C76_default_violated`, `C76_foreign_violated`, `C76_inherited_set_violated`, `C76_inherited_violated`, `C76_multiple_violated`, `C76_reference_violated`, `C76_static_violated`, `C76_unregister_add_violated`, `C76_unregister_roots_violated`, `C76_unregister_violated`, `C77_cycle_violated`, `C77_early_violated`, `C77_maps_violated`, `C77_returns_partial`, `C79_cross_violated`, `C79_cycle_violated`, `C79_flag_violated`, `C79_late_violated`, `C79_reload_violated`, `C79_replaced_violated`, `C79_same_violated`, `C79_unload_violated`, `C80_dangling_violated`, `C80_one_end_violated`, `C80_proxy_panic_violated`, `C80_proxy_violated`, `C81_ends`, `C81_object_partial`, `C81_reference_violated`, `C82_later_violated`, `C82_once`, `C82_panic_violated`, `C82_second_violated`, `C82_timeout_violated`, `C83_codec_violated`, `C83_errors_partial`, `C83_json_violated`, `C83_kept`, `C83_load_frame`, `C83_no_reader`, `C83_no_writer`, `C83_save_frame`, `C83_saved_partial`, `C83_stale_violated`, `C84_builder`, `C88_goroutines_violated`, `C88_single_violated`, `C90_added_feature_violated`, `C90_contents_violated`, `C90_inherited_twice_violated`, `C90_orphan_violated`, `C90_read_is_set_violated`, `C90_reflective_class_violated`, `C90_reflective_super_types_violated`, `C90_removed_feature_violated`, `C90_setClass_violated`, `C90_single_inheritance_partial`, `C90_two_super_types_violated`, `C92_make_partial`, `C94_order_violated`, `C94_resource_partial`, `C94_unload_violated`, `C95_both_violated`, `C95_taken_violated`, `C95_twice_violated`, `C96_dynamic_violated`, `C96_ecore_types`, `C96_two_supers_violated`, `C97_add_violated`, `C97_reads`, `C97_store_violated`, `C98_removed_violated`, `C99_saved`, `C99_saved_resource`
* none: `C11_address_reuse_violated`, `C11_detached_id_violated`, `C11_shared_id_violated`, `C31_embedded_violated`, `C45_concurrent_close_violated`, `C66_attach_violated`, `C66_detach_violated`, `C66_isSet_violated`, `C66_list_violated`, `C66_switch_violated`, `C66_transient_violated`, `C83_temporary_violated`
* propext: `C01_addAll_live_violated`, `C01_move_past_end_violated`, `C02_move_object_violated`, `C03_move_to_size_violated`, `C06_move_past_end_violated`, `C104_class_violated`, `C104_moved_violated`, `C104_refreshed`, `C104_renamed_violated`, `C108_addAll_violated`, `C108_after_violated`, `C108_answers_violated`, `C108_reads_violated`, `C10_entry_setValue_violated`, `C10_same_key_violated`, `C111_ecore_partial`, `C111_foreign_violated`, `C15_get_negative_violated`, `C16_nul_violated`, `C18_history_partial`, `C18_parse_only_partial`, `C24_shadowed_prefix_violated`, `C24_sibling_violated`, `C24_stale_violated`, `C28_notification_violated`, `C28_stale_list_violated`, `C30_none`, `C33_reflexive_partial`, `C37_move_violated`, `C37_proxy_violated`, `C37_store_violated`, `C43_abstract_violated`, `C43_inside_violated`, `C43_lost_violated`, `C43_root_violated`, `C43_sibling_violated`, `C46_clear_violated`, `C46_self_removal_violated`, `C46_set_violated`, `C46_twice_violated`, `C49_addAll_index_violated`, `C52_modification_violated`, `C53_nil_violated`, `C57_number_violated`, `C58_readers_violated`, `C58_script_violated`, `C64_addAll_violated`, `C64_add_violated`, `C64_removeAll_violated`, `C64_removed_violated`, `C65_adopt_violated`, `C65_array_violated`, `C65_foreign_violated`, `C65_insertAll_violated`, `C65_told_violated`, `C66_container_violated`, `C75_removeRange_violated`, `C75_store_violated`, `C75_toMap_violated`, `C75_unique_violated`, `C77_readers_violated`, `C81_abstract_violated`, `C81_changed_violated`, `C81_header`, `C81_huge_violated`, `C81_literal_violated`, `C81_name_violated`, `C81_number_violated`, `C81_shape_violated`, `C81_size_violated`, `C83_again_violated`, `C83_close_violated`, `C83_destroyed_violated`, `C83_failed_violated`, `C83_json_load_violated`, `C83_memory_violated`, `C83_roots_violated`, `C86_attached_violated`, `C86_endless_violated`, `C86_order_violated`, `C86_panic_violated`, `C86_transfer_violated`, `C86_value_violated`, `C87_abstract_violated`, `C87_attribute_violated`, `C87_class_violated`, `C87_exchanged_violated`, `C87_namespaces_violated`, `C87_panic_violated`, `C87_roots_violated`, `C87_subtype_violated`, `C87_unqualified_violated`, `C87_vacant_violated`, `C91_isSet_violated`, `C91_roots_violated`, `C91_rows_violated`, `C91_twin_literals_violated`, `C91_twin_packages_violated`, `C91_two_databases_violated`, `C91_unset_violated`, `C92_entry_violated`, `C92_extended_violated`, `C92_prefix_violated`, `C92_slice_violated`, `C92_toMap_violated`, `C92_twice_violated`, `C96_added_violated`, `C97_silent`, `C98_embedded_violated`
