{
 "C01": {
  "status": "partial",
  "note": "Proved for every history except calls hitting two defects of the code, each shown by a violated theorem: Move past the end with spare slice capacity, and (if the external linkedhashset iterator is live) AddAll/InsertAll of several known elements."
 },
 "C02": {
  "status": "partial",
  "note": "Refinement to mathematical sequences for every history, same two exclusions as C01."
 },
 "C03": {
  "status": "partial",
  "note": "Proved for all positions inside the list and all refused positions; newIndex = size is wrongly accepted (violated theorem)."
 },
 "C04": {
  "status": "proved",
  "note": "For every list and comparison compatible with it."
 },
 "C05": {
  "status": "proved",
  "note": "For every sequence of HasNext/Next calls, and for All()."
 },
 "C06": {
  "status": "partial",
  "note": "Every history except moves past the end, which modify the list without notification (violated theorem)."
 },
 "C07": {
  "status": "partial",
  "note": "SET/UNSET, two removals, and further removals behind the recorded ones; otherwise the code loses a position, merges SETs of different positions and merges across additions (violated theorems)."
 },
 "C08": {
  "status": "proved",
  "note": "Every sequence of additions; the linked form (AbstractNotification.Add) is proved equal to the chain."
 },
 "C09": {
  "status": "proved",
  "note": "Answers of GetValue/ContainsKey/Put/RemoveKey/ToMap/ContainsValue against the last-put specification for every history of map calls."
 },
 "C10": {
  "status": "partial",
  "note": "Holds while entries have distinct keys and are changed through the map; same-key entries added through the list API and SetValue on an entry leave the lookup stale (violated theorems)."
 },
 "C100": {
  "status": "partial",
  "note": "Proved: for texts the ID is the one given and the object is found by it and no longer by its old one; for all named types an ID that was read can be given again and is the same; for integers two texts give the same ID exactly if they are the same number; without a manager GetEObject is sound, complete and total when IDs can be read. Violated: of two texts of a number at least one does not find the object; any text beginning with a letter gives an integer ID 0; an ID of bytes can be given but makes every later search that comes past it panic; the empty ID finds an object without ID; with the ID manager an object is found by the text it was given and not by the ID it has, which its URI contains. Parsing and formatting of floating point numbers is a hypothesis."
 },
 "C101": {
  "status": "partial",
  "note": "Proved: objects with unique IDs that have no space, no slash in front and no question mark at the end, and objects without ID whose paths lead to them, are read as they were written. Violated: a reference to an object whose ID has a space is never read as the object; one with a slash in front is looked up as a path; the ID ? makes reading panic; an ID with a question mark at the end and one before is read as another object or none."
 },
 "C102": {
  "status": "partial",
  "note": "Proved: the document does not depend on anything outside the saved objects (non-interference), for resources and single objects, if references leave them only where a proxy can be read; everything contained is read (with C22). Violated: references without resolution of proxies embed objects of other resources; objects without resource are embedded; a single object embeds its container."
 },
 "C103": {
  "status": "partial",
  "note": "Proved (C103_copy_partial): in a resource whose ID manager does not know the IDs, the references of the copies are to the copies, in the same order with deferred resolution, without error, and the resource is unchanged. C103_reported: no reference is lost without an error, whatever the document and resource are. Violated: without IDs all references of the copies are to the originals (C103_originals_violated); of an object outside of the resource no reference is read, each is an error (C103_unattached_violated); in the resource of the original, with an ID manager, the IDs then lead to the copies, which are not in the resource (C103_taken_violated), and references are partly to originals, partly to copies (C103_mixed_violated); with deferred attachment of the root there is no result and no error, and the object is added to the resource (C103_root_violated); with deferred resolution an unresolved reference before one to the object itself makes the decoder panic (C103_panic_violated). References have no opposite here; attributes and containment are left to C43 and C60."
 },
 "C104": {
  "status": "partial",
  "note": "Proved: the accessors are EGet and ESet of the features with these names in every program that does not change which features of a class have these names (C104_names_partial), and in any state after SetEClass (C104_refreshed); entries are independent pairs as long as classes only get features of other names at the end (C104_pairs_partial). Violated: another feature is called key later (C104_renamed_violated), a feature is put in front (C104_moved_violated), SetEClass to a class with another order (C104_class_violated), the key feature is taken out of the class: panic (C104_removed_violated, for all entries). Features are single-valued attributes without default."
 },
 "C105": {
  "status": "partial",
  "note": "Proved: a table whose statements are executed behaves as a record, whatever fails in other tables (C105_table_partial); whatever fails, what is got is an error or the value after the calls before a certain one (C105_origin). Violated: Get gives the error as the value (C105_get_violated, all states); after one Set that fails, every Get in the table gives an error as value for ever (C105_after_set_violated); after one Get that fails nothing is stored any more, without a sign (C105_after_get_violated). One call after the other, objects that are in the database; lists are not modelled here."
 },
 "C106": {
  "status": "partial",
  "note": "Proved: with version 1.0 and UTF-8 any text is read again (every character, through the bytes of UTF-8); with any other known encoding that extends ASCII, any ASCII text; the version and encoding read are those written whenever the document is read; an unknown encoding is an error. Violated: every other version than 1.0 is written but cannot be read; SetEncoding changes the declaration only, the bytes stay UTF-8, so that with an encoding of one byte per character no text outside ASCII is read again (for all texts and tables); spaces around the equals sign hide version and encoding."
 },
 "C107": {
  "status": "partial",
  "note": "Proved: the resolved object is given and stays the container with the same feature, the proxy loses the object and keeps the others in order, nothing else changes, the second call changes nothing; containers that are no proxies or cannot be resolved are given unchanged; the notifications are exactly those of the proxy and of the container reference (for objects not in feature 0 without opposite); container references follow EContainer. Violated: an object in the first feature of its container, without container reference, always sends RESOLVE for the feature -1, which no class has (the comparison with the base is not strict); the new container is not asked whether it has the object."
 },
 "C108": {
  "status": "partial",
  "note": "Proved: while the database works all calls refine lists in memory, for every history; whatever fails in any state, each call but AddAll changes its list as it should or not at all, and no other list; AddAll leaves a prefix of its values. Violated: AddAll may stop after any number of values and keeps those before; after an error IndexOf gives 0, as if the value was the first one, Size 0, IsEmpty true, Contains false, Remove nil, Get the error as the value; after one call that failed no list of the table changes any more, and after one that could not write none can be read."
 },
 "C109": {
  "status": "partial",
  "note": "Values, elements, lists, IDs and definedness for all programs. A data type initialised again without default value keeps the old one (C109_again_violated); an opposite is set at one end only (C109_opposite_violated). C109_once_partial is the claim for elements that one call speaks of. Factories, generic types and notifications are not in the model."
 },
 "C11": {
  "status": "partial",
  "note": "Lookup inverse, distinctness for IDs not already owned; SetID with an owned ID, detaching and address reuse break it (violated theorems)."
 },
 "C110": {
  "status": "partial",
  "note": "Proved for all numbers an int64 can hold, for errors, nil and documents. Violated: unsigned numbers from 2^63 and negative numbers in any form give no error and leave the object without an ID (C110_unsigned_violated, C110_negative_violated), while the text of such an unsigned number is an error."
 },
 "C111": {
  "status": "partial",
  "note": "Proved for dynamic factories and for the classes of Ecore. Violated: the factory of Ecore goes by the classifier ID alone, so that a class of another package with the same ID gives an object of a class of Ecore (C111_foreign_violated)."
 },
 "C12": {
  "status": "proved",
  "note": "Every history: fresh IDs are never IDs given before."
 },
 "C13": {
  "status": "proved",
  "note": "For every finite tree and both root modes, and for every number of calls; termination included."
 },
 "C14": {
  "status": "partial",
  "note": "only contained objects of the class, each at most once, for every metamodel and every well typed tree (C14_sound_partial); exactly those for acyclic metamodels, when the class differs from the class of the object and no object has an unset containment reference beside others (C14_complete_partial). Missing cases are violated: C14_unset_violated (an unset reference hides the others), C14_start_class_violated, C14_cycle_violated, C14_subclass_violated"
 },
 "C15": {
  "status": "partial",
  "note": "Iteration and queries for all indexes except negative ones; Get(-1) answers the first element (violated theorem)."
 },
 "C16": {
  "status": "partial",
  "note": "All paths without the rune 0: the buffer algorithm equals the segment level normal form; shape, idempotence and unchanged components. With a rune 0 text is lost (violated theorem)."
 },
 "C17": {
  "status": "partial",
  "note": "URIs with scheme and absolute paths, target different from the base and its directory, base not ending in a dot segment, Authority telling the two apart; each excluded case is refuted by a violated theorem."
 },
 "C18": {
  "status": "partial",
  "note": "Proved for histories of parsed texts and of clean tuples, with the parser of net/url modelled. Violated when TrimFragment or NewURIFromComponents make a tuple whose text is read as other components."
 },
 "C19": {
  "status": "partial",
  "note": "Proved for well typed ESet/EUnset of single valued references and all list calls, opposites mutual, features with the same ID in all classes. Violated by EUnset/ESet(nil) of a list (children keep their container) and with several super classes (the ID of the declaring class is used)."
 },
 "C20": {
  "status": "partial",
  "note": "Proved for well typed ESet/EUnset of single valued references and all list calls, opposites mutual and not the reference itself, features with the same ID in all classes; ESet/EUnset never panic. Violated by EUnset of a list, with several super classes, and by a reference that is its own opposite."
 },
 "C21": {
  "status": "partial",
  "note": "every read after any writes equals a plain record; violated when the container is set while properties are stored (flag mask 0x00FF drops bit 8) and for EIsProxy after ESetProxyURI(nil)"
 },
 "C22": {
  "status": "partial",
  "note": "For every graph of objects (shared, cyclic, with proxies and references to other resources) whose metamodel is found by the reader and whose data survive conversion, encoder and decoder succeed and what is read is isomorphic to what was written: same roots, classes, IDs, values, order and references; foreign objects are read as proxies with their URI. Proved for resources and for single objects. Missing: the bytes of msgpack, opposites set while reading (C23), references to the container may be left out. Violations: contents that are also contained through a resolving reference lose their values; proxies reached through references that do not resolve become plain objects; objects of a resource without URI become empty objects; features with an empty name are not read."
 },
 "C23": {
  "status": "partial",
  "note": "the list is a permutation of the saved one without panic; in the saved order exactly if it was empty or complete before (violated otherwise)"
 },
 "C24": {
  "status": "partial",
  "note": "Scoping proved for all well nested histories in which no new prefix is declared in the room left by popped declarations; outside of these the code panics or mixes up declarations (violated theorems)."
 },
 "C25": {
  "status": "partial",
  "note": "Proved: for every forest of elements (any names, attributes, depth), the calls of the encoder write exactly the tag text of that forest and reading the tags back gives the nesting; escaped attribute values contain no markup. Violated: content written by addContent is not escaped; endEmptyElement on an unnamed root writes a stray '/>'."
 },
 "C26": {
  "status": "partial",
  "note": "Proved for paths, ID attributes and ID managers under hypotheses about names and IDs; violated for feature names with dots, IDs with a leading slash or question marks, and ID attributes beside an ID manager"
 },
 "C27": {
  "status": "partial",
  "note": "Exact characterization for named elements not beginning with @; annotations that are not the first of their source; violated for the first annotation of every source, escaped names, names with a number, names beginning with @"
 },
 "C28": {
  "status": "partial",
  "note": "Proved for every history in which the program works with the list GetContents answers; additions to a list obtained before Unload mark the empty resource as loaded, and a decoder which empties the contents makes the notifications lie (violated theorems)."
 },
 "C29": {
  "status": "proved",
  "note": "Every chain of registries and every history of calls."
 },
 "C30": {
  "status": "proved",
  "note": "Decision logic for every registry and path, with an independent definition of the extension."
 },
 "C31": {
  "status": "partial",
  "note": "after every history of operations the adapter is attached exactly to the containment tree of its target, resources and cross-resource containment included (C31_content_partial), and every operation is handled (C31_total_partial). Violated for AddAll of an object and its own content (C31_add_all_violated) and for adapters embedded in another one (C31_embedded_violated)"
 },
 "C32": {
  "status": "partial",
  "note": "C32_equals_partial: Copy ends, whatever the order of the map of copies, and Equals(o, Copy(o)) is true, for consistent graphs with any numbers of objects, depths, cycles of references and opposites, when no container reference of o is set, references with an opposite stay inside the tree, and children of dynamic objects in lists have no container reference. C32_separate: the copy and everything it contains is new, it has no container, no existing object or list is changed. C32_independent_partial: after any sequence of changes to the copy the originals are unchanged, except for lists of values of dynamic objects. C32_all_equals_partial, C32_all_separate, C32_all_independent_partial: the same for CopyAll of any list of objects none of which is in the tree of another; references with an opposite may then go from the tree of one object to that of another. Violations proved with witnesses: C32_all_violated (CopyAll of an object and an object it contains: the copies in the tree lose their references), C32_shared_violated (dynamic objects share their many valued attribute lists with the copy), C32_container_violated and C32_immutable_violated (children of dynamic copies have no container and their list cannot be changed), C32_root_violated (a contained object with container reference is not Equal to its copy), C32_inherited_violated (inherited references are not copied), C32_outside_violated (references with an opposite that leave the tree are dropped). Not modelled: proxy resolution, maps, notifications."
 },
 "C33": {
  "status": "partial",
  "note": "Equals ends on every finite graph and is true exactly if a one-to-one pairing with the same contents exists (C33_equals_partial, EqualsAll C33_equals_all_partial); reflexive, symmetric; transitive for objects reaching no common object; direct and deep differences in features declared by the class are seen. Violated: transitivity in general (C33_transitive_violated), inherited features (C33_inherited_violated)"
 },
 "C34": {
  "status": "proved",
  "note": "Features and operations, for all histories of reads and modifications of any class in hierarchies without cycles (multiple and repeated inheritance included), each feature being in one class at most and super types being resolved."
 },
 "C35": {
  "status": "partial",
  "note": "Proved for all the lists except cross references, after any history with resolved super types and unchanged kinds of features. Violated: cross references are never invalidated; containments stay stale when a reference changes its kind; an unresolved proxy among the super types makes the read hang."
 },
 "C36": {
  "status": "proved",
  "note": "For all histories in hierarchies without cycles whose super types are resolved."
 },
 "C37": {
  "status": "partial",
  "note": "C37_sequence_partial: without proxies, every sequence of calls on a list with a store, with or without cache and with switches of the cache and of the store among them, gives the results of the sequence of elements. C37_cache_partial: sequences of calls that differ by switches of the cache only have the same results and leave the same elements in the store. C37_size_partial: Size is the number of elements of the store. Missing: proxies, moves past the end, disturbed set iterator. C37_store_violated: a list given another store keeps its size and cached elements. C37_proxy_violated: with proxies results depend on the cache. C37_move_violated: a move past the end changes the cache only."
 },
 "C38": {
  "status": "partial",
  "note": "With exact numbers every history of valid operations, bulk insertions of several values before existing ones excepted, has the results and the order of the same history on sequences; with any rounding the same as long as the computed numbers fit between their neighbours. The code violates the rest: bulk insertions before existing values and 53 insertions at the same place."
 },
 "C39": {
  "status": "partial",
  "note": "In every execution without cancellation by the time limit, a write is executed completely before every later call that touches the same object feature, the whole object or the store; the same for a read and a later write with no call in between. Violated: a write overtakes the first of two pending reads; a call for a feature overtakes a pending call for its whole object; the time limit breaks the order."
 },
 "C40": {
  "status": "partial",
  "note": "Get returns the last stored value whether pending or executed, for every schedule, when objects are not also values of other writes and no SetContainer/AddRoot is involved; IsSet likewise when values are not the default. Violated: Get of an object that is the value (or container) of another pending write returns that object itself; nil while AddRoot is pending; IsSet of a pending default value; IsSet of an int feature after UnSet."
 },
 "C41": {
  "status": "partial",
  "note": "WaitOperations returns whatever fails: the goroutines make at most two steps per call and then it returns. Operations are all executed if nothing that touches something in common is pending when one fails. Violated, for every execution: once a write was given up because of a failed one, no later call for that feature is ever executed; the same after a panic."
 },
 "C42": {
  "status": "partial",
  "note": "Proved: a prefix is bound to one namespace only, recorded declarations are distinct and kept, and both terminate with at most two claims on a prefix. Violated: a third package with the same prefix, or a third declaration of the same prefix, makes saving or loading loop forever."
 },
 "C43": {
  "status": "partial",
  "note": "Proved: the stacks never panic; with known elements only, each sets its feature of the enclosing object; an unknown element after everything else only causes an error; loading without error means the document was read as meant. Violated: siblings after an unknown element go to the wrong object or are lost; content of unknown elements is given to the enclosing object; a reference to an abstract class is lost without error."
 },
 "C44": {
  "status": "partial",
  "note": "All data types of Ecore and the named types of dynamic packages, all values; enums in full. That ParseFloat reads what FormatFloat writes is a hypothesis. Violations: dates not in UTC or with a fraction of a millisecond are read as another instant (the layout ends with the letter Z and three digits); byte arrays, bytes and dates of dynamic packages are not converted."
 },
 "C45": {
  "status": "partial",
  "note": "FIFO, completeness and progress proved for all interleavings; Close concurrent with a send panics (violated theorem), proved safe when the close comes after the sends."
 },
 "C46": {
  "status": "partial",
  "note": "Histories of additions and removals of adapters not already attached; Clear, Set, double attachment and removal during delivery violate the claim (violated theorems)."
 },
 "C47": {
  "status": "partial",
  "note": "Result and finality for every map and every iteration order; termination for shortening maps and scheme to scheme maps; refuted in general, and the host of the new prefix is ignored (violated theorems)."
 },
 "C48": {
  "status": "partial",
  "note": "Proved for the first call after a modification, for classes with only own or only inherited operations, no operation inherited twice, no duplicate signatures in a class. Violated: with own and inherited operations the call hangs (mutex locked twice); an operation inherited twice overrides itself."
 },
 "C49": {
  "status": "partial",
  "note": "Every history without bulk appends; AddAll reports wrong positions (violated theorem)."
 },
 "C50": {
  "status": "partial",
  "note": "When user and host do not occur earlier in the text; otherwise wrong slice or panic (violated theorems)."
 },
 "C51": {
  "status": "partial",
  "note": "Proved for all histories without renaming. Violated: the map is not invalidated by a renaming."
 },
 "C52": {
  "status": "partial",
  "note": "Proved for any number of goroutines which only read. Violated: a read of a sub class and a modification of its super class can deadlock (locks taken upwards and downwards)."
 },
 "C53": {
  "status": "partial",
  "note": "Proved for every document in which xsi:nil of a single valued attribute does not stand alone. Violated: saveNil writes xsi:nil without declaring xsi."
 },
 "C54": {
  "status": "proved",
  "note": "When WaitOperations returns without error all operations called before that touch the object have begun and ended, in every execution."
 },
 "C55": {
  "status": "partial",
  "note": "Proved for well typed calls with the same feature IDs in all classes; list calls behave as in C02 whatever the opposites do."
 },
 "C56": {
  "status": "partial",
  "note": "Proved for containments without opposite; with an opposite the result always is the container reference (violated)."
 },
 "C57": {
  "status": "partial",
  "note": "Integers in range, with sign or zeros in front, give this integer; whatever the text is, the value is in the range of its type and dates are dates of the calendar. Violations: malformed or out of range text is not reported but gives 0, false, the nearest number or the first day of year 1; an empty text gives a string for a byte."
 },
 "C58": {
  "status": "partial",
  "note": "Writes are executed one after the other in order of the calls; reads wait for all writes of their tables; a write waits for the last read; without nested statements every call returns. Violations: a failed statement stays in the queue, so that no write is executed any more (for example after an iteration over a list of the store is stopped); a write overtakes an earlier read if another read was called in between; a read overtakes the creation of a table with an index; nested reads deadlock with concurrent writes; a script that changes a table twice waits for itself."
 },
 "C59": {
  "status": "partial",
  "note": "C59_roundtrip_partial: every graph with at most one content, values the database keeps, and default values equal to the zero of the type is loaded as it was, whatever the order in which the classes are read. Missing: inverse references and goroutines; the cases of the ten violations."
 },
 "C60": {
  "status": "partial",
  "note": "Proved: what the encoder writes is read by the decoder, through a model of the XML parser, as the same document, for every resource that meets the restrictions of Savable (one root, values that can be written, names that are not reserved). Missing, and shown to be violated by the code: several roots, contents with markup or carriage returns, nil values, empty lists that are set, lists that mix references forward and backward without deferred resolution, features and prefixes named href, contents of type EObject, an ID manager whose IDs are not written or that is used along with ID attributes, IDs and URIs with spaces or markup."
 },
 "C61": {
  "status": "proved",
  "note": "Membership after any history, and the effect of every call on a list of resources."
 },
 "C62": {
  "status": "partial",
  "note": "The answer, its stability, single reading and termination are proved for histories that use no map of URIs, or do not rename, add or remove resources while using one. Violated: renamed and removed resources are answered from the map; a resource without URI in a set makes GetResource never end; the resource of a package is read from its URI when asked for again."
 },
 "C63": {
  "status": "partial",
  "note": "The result is at the end of the chain of proxies, the same one again, and exists if no chain is endless. Violated: proxies that stand for each other are resolved for ever."
 },
 "C64": {
  "status": "partial",
  "note": "Proved: after any calls with objects that are not proxies the list shows what the sequence of the resolved objects is, with the same answers; reading and its notifications without restriction. Not: the objects given back by RemoveAt, Set and Move, and calls that are given proxies (violations proved), moves past the end (C03)."
 },
 "C65": {
  "status": "partial",
  "note": "Proved for all programs that do not use arrays of ToArray for other lists; the array of ToArray for lists that are only extended or cleared. Violations proved: other calls change the array, a list over the array of another list, InsertAll of such an array changes the list it came from, InsertAll of a list in itself notifies the whole result. Not: moves past the end (C03), iterator of the hash set (C01)."
 },
 "C66": {
  "status": "partial",
  "note": "Proved for single values and containers, all sequences of calls, except those for which violations are proved: transient values are lost when the cache is switched or a store is given; with a cache, unread values are lost when the store is taken away and stale ones shown when it is changed; values set before there is a store do not reach it; lists get a new identity; a list that has been read counts as set; an unread container is lost when the store is taken away."
 },
 "C67": {
  "status": "partial",
  "note": "Proved for all sequences in which nothing is changed that was asked about before; literals of enumerations without condition. Violated after lookups: renamed classifiers keep their old name, classifiers added while delivery is off are not found, classifier IDs and reference types never change, defaults of types and features stay."
 },
 "C68": {
  "status": "partial",
  "note": "Proved for all sequences in which no name or namespace that was asked about changes and no classifier leaves a package whose types were asked about; classifiers may be added and names may be equal. Violated: names and namespaces are remembered for ever, classifiers taken from a package are still found and their replacement is not, a package asked for both its name and a type panics."
 },
 "C69": {
  "status": "partial",
  "note": "Proved for clean objects: documents determine what was saved to any depth (injectivity), no key twice, and the encoder ends when containment has a height. Violations: roots after the first are not written, nil in lists is dropped, references to objects in no resource are all written as the empty string, a feature named eClass gives a key twice, a cycle of references without proxies is written for ever, a reference set to nil panics."
 },
 "C70": {
  "status": "partial",
  "note": "Proved: Remove for containment references without opposite, after any well typed calls, with the complete frame; IsAncestor and GetAncestor for containers that come to an end. Violations: Remove panics when the containment has an opposite (EContainmentFeature is the wrong end), or removes the container from its own container when the class has both; cycles of containment make IsAncestor endless; nil is an ancestor of everything."
 },
 "C71": {
  "status": "partial",
  "note": "Proved for all objects properly held (conditions of C26, C27) strictly below the other. Violations: the empty path of an object relative to itself panics, the URI // of a root panics, a path that leads nowhere panics where nil is tested for."
 },
 "C72": {
  "status": "partial",
  "note": "C72_follow_partial and C72_join_partial: for single inheritance, ESet and EUnset of single valued references and all list calls. C72_positions_violated: when three or more objects leave a list in one call by their other end, and not in the order of the list, the merged REMOVE_MANY has one position less than objects (ecore/abstractnotification.go:115-119 stops one too early). C72_inheritance_violated: with several super classes notifications of different features are merged."
 },
 "C73": {
  "status": "partial",
  "note": "Proved for all kinds, features, states and values: ESet/EGet/EIsSet/EUnset agree with the declarations and leave the other features alone, sequences of writes show the last value, reads are pure, proxies are resolved and kept, notifications carry old and new value. Violated: ESet and EUnset of an unchangeable feature recurse without end; ESet of the list EGet returned empties it; the container of a removed element panics; the reference type and the default value are stale after a change of type; EIsSet of the literal and of computed features; featureID is silent and instanceTypeName announced as another feature; some nil values panic."
 },
 "C74": {
  "status": "partial",
  "note": "Places, effects and owners proved for all reachable states. Violated: an entry moved between the details of two annotations stays in both (EBasicInverseRemove ignores details); getters of the owner panic after a removal because the container feature ID is kept; a factory replaced through SetEFactoryInstance panics when asked for its package whereas one replaced through SetEPackage answers nil."
 },
 "C75": {
  "status": "partial",
  "note": "Proved for all stores, call sequences and switches of the cache when the factory makes entries that can be told to have a cache; with list calls when no two entries get the same key, the feature is unique, ranges are removed only with a cache or without store and a map is given only stores that have its entries. The code violates the claim otherwise: Put of a new key panics with the entries the library's factory makes; RemoveRange without cache panics and keeps the list locked; after SetEStore lookups answer with the old store; a non-unique feature lets an entry be twice in the map; ToMap gives the internal map. Not modelled: that SetEStore of the object does not reach its maps (ecore/estoreeobject_impl.go 67-99), notifications, the cache of the entries themselves."
 },
 "C76": {
  "status": "partial",
  "note": "Proved for all metamodels with single inheritance, all object graphs and operation sequences: features are declared by the class of the object, references lead to objects in the store, defaults are 0 where a value is missing, contained objects are put into the store by their container. The identity of what is read is proved for all databases and all operations but UnRegister. The code violates the claim otherwise: inherited features are never read or written, and Get answers a Go error as value; GetContainer gives another feature with multiple inheritance or static features; an object stored before its container has none; references to objects not stored are proxies for ever; Contains stores the object asked for; an object with the ID of another database is taken for one of this; never set attributes are set and ignore the default; unregistered plain objects lose their values, unregistered roots are read as other objects and cannot become roots again. Not modelled: object IDs other than SQL IDs, tables of packages and classes, codec versions, locks, the order of the operations (C39, C41), other data types (C40, C57, C59)."
 },
 "C77": {
  "status": "partial",
  "note": "Rows written once, exclusion, progress, a bound on the number of steps, completeness and release of all locks are proved for every interleaving at the level of locks, questions and rows. Violated: an object already being stored by another goroutine is reported stored before its contents are (C77_early_violated); maps shared by all classes, packages and literals are written under locks that are one for each (C77_maps_violated); goroutines reading one row may get two objects (C77_readers_violated); a class that is its own super type blocks its goroutine (C77_cycle_violated). Missing: failures of queries and the values of the rows."
 },
 "C78": {
  "status": "partial",
  "note": "Holds for names that begin with a letter or _ and go on with letters, digits, _ and $ (C78_names: exactly these, and names with a dot first and no quote, are read as themselves). Other names change the statement: a class name can contain another statement (C78_injection_violated), a name with a space is another column (C78_space_violated), the empty name panics (C78_empty_violated). Tables, indexes and columns are different if class names have no _, differ in more than case and are not idx, and features are not named like the key or idx (C78_different_partial); otherwise they clash (C78_case_violated, C78_list_violated, C78_index_violated, C78_column_violated). NULL is never found in a list (C78_null_violated)."
 },
 "C79": {
  "status": "partial",
  "note": "Proved for all programs of calls that put no object inside itself, put no object both in a resolving reference and in the contents of a resource, do not unload, and do not put an object by its container in the place of an object it is in; the same ID kept for all programs without Unload. The code violates the rest: objects with two places get two IDs or none, Unload leaves EResource, managers set late have no IDs, a non-resolving reference with a resolving opposite leaves the object in the contents, an object is attached twice when it replaces its own container, cycles do not end."
 },
 "C80": {
  "status": "partial",
  "note": "Proved for all well formed metamodels, consistent graphs without self references and documents of all their objects, with and without IDs: loading gives no error, and containment lists, single valued references and lists whose opposite is a saved list are restored exactly, in order; other lists are restored up to the order, which is given exactly (values that come before the object in the document first). For all typed documents, also inconsistent ones and those with proxies of the same document: unless loading panics, opposites are symmetric and containment holds. Violated: order of lists with a single valued, unsaved or no opposite; self references (Move with swapped arguments, lost single references, order with IDs); deferred resolution panics for opposite lists; a many valued reference given at one end only panics; dangling single references not reported; same document proxies are kept beside the object (Remove with a number) or panic (nil value)."
 },
 "C81": {
  "status": "partial",
  "note": "Proved: any document that loads without an error gives exactly one error and no contents when cut before the point where it ends, or when an item is replaced by one of a type that msgpack does not convert; a document of the encoder has to be there up to its last item; every stream is read to an end with a number of calls bounded by its length; another signature or version is an error; documents that are accepted are read as in C22. Violated: data after the document, and changed values, names or numbers that fit, are not noticed; negative or huge sizes, negative object numbers, numbers of packages, classes and features out of range, abstract classes, literals that an enum does not have, and the name of a list for a single feature are panics. Not modelled: conversions of msgpack between types, cuts within an item (which are the same as cuts before it), proxies resolved while decoding."
 },
 "C82": {
  "status": "partial",
  "note": "Without failing operations Close waits for everything called before it, and Serialize comes after all earlier writes. Violated when an operation fails or has panicked (Close gives up and the others are lost), for operations called while Close runs, for a second Close, for calls after Close (panic, still registered), for later writes overtaking Serialize and after the time limit."
 },
 "C83": {
  "status": "partial",
  "note": "Proved: a Save without error can be loaded with the same contents, for all later calls (files, XML/binary/SQL, one root or binary, Close succeeds); Save and Load change nothing else; errors are those of the call; without writer or reader nothing is changed. Violated: any other failing Save destroys the former document (os.Create first), missing codecs included; an emptied XML document loads without error; memory URIs and missing URIs neither save nor report, old errors stay; JSON never reports errors and panics when loaded; roots after the first are dropped in silence; the error of Close is ignored; a failed temporary file panics; a damaged document is not read again."
 },
 "C84": {
  "status": "partial",
  "note": "Proved for URIs derived from texts without % and from clean tuples (exactly those tuples without % which are read back, C84_clean_iff). Violated for escapes (decoded when parsed, not written again), for // behind an empty authority, for file names with ?, #, %, a colon, and by Relativize."
 },
 "C85": {
  "status": "partial",
  "note": "Proved for databases made by a store or by an encoder with CONTAINER_ID, then extended by any number of stores and read by a store (C85_kept_partial), for documents written without CONTAINER_ID and read by the decoder (C85_document_partial), and the refusal of other versions above 0 (C85_version). Violated: the decoder reads the ID at a fixed position and loses all IDs when there are container columns; a store on a database without container columns (or without the ID column it is asked for) marks it as having them and then fails; OBJECT_ID without ID manager names a column that is never made; rows added without manager are unreadable with one; objects without ID are written as <nil>; a version given as int; versions of 0 or below; unreadable properties panic; a second encoding to the same database fails."
 },
 "C86": {
  "status": "partial",
  "note": "Proved for any reactions: an observer behind passive ones is told all changes in order and its copy is right whenever it is told something and whenever all calls returned; every observer is told each change exactly once if nothing panics and never more often. The code violates the rest, witnesses: an observer behind a reacting one is told the reaction before its cause (order, value), also when a child is moved between notifiers (transfer); a panicking reaction hides the change from the observers behind (panic); an observer attached during a notification is told the earlier change (attached); endless reactions never return (endless)."
 },
 "C87": {
  "status": "partial",
  "note": "Proved for metamodels without ambiguous names: a document root with one value (C87_root_partial), an object whose class is the type of a qualified feature of the document root, with and without suppression (C87_object_partial), and packages without document root (C87_plain_partial). The code violates the claim in the other cases: the class of a root element found by a super type is lost (C87_subtype_violated, C87_abstract_violated), a class without root feature or a root feature without namespace is not found (C87_class_violated, C87_unqualified_violated), names are looked up before extended names and namespaces are ignored (C87_exchanged_violated, C87_namespaces_violated), attributes of a document root are written outside of the document and panic when read with suppression (C87_attribute_violated, C87_panic_violated), a document root with no or several values gives a text that is not a document (C87_vacant_violated, C87_roots_violated). References, identifiers and the text level are in C60."
 },
 "C88": {
  "status": "partial",
  "note": "Proved: loads one after the other in any order give every reference the objects it had, and single values exactly (members); a list that is read before its opposite has its order (order); any interleaving of goroutines is right if one of two opposites is stored, and comes to an end (goroutines, ends). Violated by the code: the order of the list on the side that is read second is lost (order), so the order depends on the order of a Go map (classes); two goroutines that read both sides of a reference put an object two times in a unique list (goroutines, single)."
 },
 "C89": {
  "status": "partial",
  "note": "Proved for all schedules of any number of users: users with different base names, one at most of which saves in memory, have what they expect, other files are untouched and nothing is left (isolated). Violated by the code: two resources saved in memory at the same time share one database (writers); documents or stores with the same base name share a database in memory, the file of a store may be replaced by another (readers, stores, store_replaced); with # in the name the database in memory is a file of the working directory, which is replaced (name, hash); a document shorter than 20 bytes panics (panic)."
 },
 "C90": {
  "status": "partial",
  "note": "Proved: every history of calls is answered as records answer it, for both sorts of objects, any number of objects and features, with changes of classes not used by objects and SetEClass to a class whose features begin with the same ones; single inheritance hierarchies always suit. The code violates the rest: a feature added to the class of an object panics; removed or reordered features exchange values; SetEClass copies values by position and leaves contained objects with a container that cannot be left; with two super types a containment list records the wrong feature, so that moving an object leaves it in two lists and loses another value; reflective objects confuse features of several super types; a feature inherited twice doubles the contents; EContents keeps the features of the former class; reading a list makes it set."
 },
 "C91": {
  "status": "partial",
  "note": "Proved for all metamodels without twins (URIs, names, literal texts) and all histories: any number of sessions, each with its own version of the packages, with new or kept ID manager (C91_sessions_partial); at most one row per package, class and literal and session (C91_rows_partial, C91_one_session_partial). Violated: a second session writes the class and its package again; UnSet of an enumeration attribute writes the default value where a literal number belongs, so Get gives another literal or nil (in general: nil when the default is 0); IsSet is true for an attribute never set; one unknown class makes GetRoots give nothing; packages with one URI, literals with one text; one ID manager with two databases."
 },
 "C92": {
  "status": "partial",
  "note": "proved for programs that write only into slices they have not given away and not into what ToArray and ToMap give (appending to it is allowed); for other programs the code breaks the claim: the list shares the slice, ToArray and ToMap give the inside away; two entries with one key and SetValue of an entry make the elements and GetValue differ"
 },
 "C93": {
  "status": "partial",
  "note": "Proved for all programs that bring only entries that are in no map (free ones and those of lists): every answer is the one of the specification, where entries are in one place; contents and containers agree. For all programs: the container of an entry has it. Violated in general: a map of objects is not an ENotifyingList and EAnnotation does nothing for its details, so an entry added to another map or list stays in the first map; it is in both, removing it from the first leaves it without container in the other, and a Put in the other changes the value in the first."
 },
 "C94": {
  "status": "partial",
  "note": "Proved for all documents and all programs without Unload, when the resources of the set are loaded as far as they can be read: the closure under references, all references settled, a second call is the identity; termination for finitely many documents; ResolveAllInResource for one resource. Violated: a resource in the set that is not loaded is passed by, and its references stay proxies when a later resource makes it load; after Unload and Load the references of other resources keep the old objects and are not proxies."
 },
 "C95": {
  "status": "partial",
  "note": "Proved: the container of an object holds it (all programs); what holds it is its container as long as no two entries stand for the same object; reading lists changes nothing shown (all programs), reading single references neither under that condition; resources of objects are independent of containers, and an object is in the contents of its resource only (all programs). The code violates the rest: an object in one list and its proxy in another are both the object after reading, and removing one takes the container away from the other; reading a single reference takes the object out of the list it is in; a list with an object and its proxy has it twice; a proxy of an object inside it makes a cycle and EResource does not end. Not modelled: notifications, attach and detach, bulk calls."
 },
 "C96": {
  "status": "partial",
  "note": "Proved for code generated for classes with one super type at most, of any depth, and for all classes and operations of the Ecore model; operations the class does not have always panic. Violated: with two super types two operations have the same number and invoking one does the same as invoking the other; nil for an object panics; the operations of EObject panic on every Ecore element; dynamic objects do nothing; adding an operation to a super type at run time makes another method called."
 },
 "C97": {
  "status": "partial",
  "note": "Proved for any calls on the view, and for any calls on both if no object is added through the view that stands for one that the list shows (and no move past the end, C03). Violated: with a proxy of an object in the list, the view takes the object, which the list refuses and then shows twice; the view of a list with a store is unique even if its feature is not. The array of ToArray being shared with the list (C65) is not modelled here."
 },
 "C98": {
  "status": "partial",
  "note": "Attaching is exact for both settings, and over every history of containment changes and proxy resolutions (non-embedded adapter, no proxies below what is added or removed; none at attach time unless resolveProxies) the adapter is on exactly the tree. Violated by the code: with the default setting a proxy present when attaching is never followed; an adapter embedded in another never follows; removing the adapter reads (loads) the proxies and stays attached to them."
 },
 "C99": {
  "status": "partial",
  "note": "Proved: with a resource set all resources are in it, and references go to the resource the document was first loaded into or saved with, after any operations; what was loaded stays; what was saved last is loaded, with or without a set. Violated: without a resource set every call of GetResourceSet, Load, LoadWithReader and SaveObject makes a new set, so no reference between two documents ever goes to what was loaded, and GetResourceSet never has them; loading a URI again makes a second resource no reference goes to, which is so for all documents read from readers but the first, as they share the URI *.xml."
 }
}