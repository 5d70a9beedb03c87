{"id": "C01", "title": "A unique list never holds the same element twice", "statement": "Starting from a duplicate-free list created as unique, after any sequence of Add, AddAll, Insert, InsertAll, Set, Move, MoveObject, RemoveAt, Remove, RemoveRange, RemoveAll and Clear calls (including calls that panic and are recovered), no value occurs at two positions of the list.", "quantifier": "all element types with decidable equality, all initial duplicate-free contents, all finite sequences of public list operations with arbitrary arguments", "why_tests_cant": "a test samples a few sequences; the claim is an invariant over all operation histories", "anchors": ["ecore/abstractelist.go: AbstractEList.Add, AddAll, Insert, InsertAll, Set, getNonDuplicates", "ecore/basicelist.go: BasicEList.doAdd..doClear"]}
{"id": "C02", "title": "List operations behave as operations on a mathematical sequence", "statement": "Every EList operation changes the observable contents (ToArray/Get/Size) exactly as the corresponding sequence operation: Add appends, Insert puts the element before the old element at the index, RemoveAt/RemoveRange delete exactly the addressed positions, Set replaces exactly one position, Remove deletes the first equal element, RemoveAll keeps exactly the elements not in the argument; a call with an out of range index panics and leaves the contents unchanged.", "quantifier": "all contents, all arguments (any integer index, any element, any collection), unique and non unique lists, all finite operation sequences", "why_tests_cant": "index arithmetic is unbounded; only a refinement proof covers all sizes and indexes", "anchors": ["ecore/abstractelist.go", "ecore/basicelist.go"]}
{"id": "C03", "title": "Move relocates exactly one element", "statement": "Move(oldIndex,newIndex) with both indexes inside the list puts the element of oldIndex at newIndex, keeps the relative order of all other elements, returns the moved element, and Move(new,old) undoes it; an index outside the list panics and leaves the contents unchanged.", "quantifier": "all lists, all pairs of integer indexes", "why_tests_cant": "boundary behaviour (index equal to the size) and order preservation range over all list lengths", "anchors": ["ecore/abstractelist.go: Move, MoveObject", "ecore/basicelist.go: doMove"]}
{"id": "C04", "title": "Binary search returns the earliest position of the target", "statement": "On a list sorted with respect to the comparison function, the search returns the smallest index whose element is not smaller than the target, and reports found exactly when the element at that index compares equal.", "quantifier": "all lists, all comparison functions, all targets for which the list is sorted", "why_tests_cant": "the loop bound and the off by one cases depend on every list length", "anchors": ["ecore/elist.go: BinarySearch"]}
{"id": "C05", "title": "Iterators enumerate the list exactly once in order", "statement": "On a list that is not modified meanwhile, a fresh iterator driven by HasNext/Next yields exactly the elements of the list in list order and then HasNext is false; HasNext never changes what is returned next; Next after the end panics.", "quantifier": "all lists, all interleavings of HasNext and Next calls", "why_tests_cant": "needs an induction over the iteration for all lengths and call patterns", "anchors": ["ecore/elistiterator.go: listIterator", "ecore/abstractelist.go: Iterator, All"]}
{"id": "C06", "title": "Notifications of a list are enough to mirror it", "statement": "For a list with a listening adapter, applying each dispatched notification (ADD, ADD_MANY, SET, MOVE, REMOVE, REMOVE_MANY with its position(s)) to a copy of the contents taken before the operations yields exactly the contents of the list after them, for every sequence of operations; an operation that does not change the list does not change the copy.", "quantifier": "all contents, all finite sequences of list operations, unique and non unique lists", "why_tests_cant": "adapters reconstruct state from events; a missing or wrong position only shows on specific histories", "anchors": ["ecore/basicenotifyinglist.go: doAdd, doInsertAll, doSet, doClear, doMove, doRemove, doRemoveRange, doRemoveAll"]}
{"id": "C07", "title": "Merging notifications loses nothing", "statement": "When a pending notification absorbs a later one of the same notifier and feature, the merged notification describes the combined change: merged SET/UNSET keeps the first old value and the last new value; merged removals list exactly the removed elements with their positions in the list before the first removal, in increasing order.", "quantifier": "all lists, all sequences of removals, all merges of SET/UNSET notifications", "why_tests_cant": "the position arithmetic depends on the whole list of earlier positions", "anchors": ["ecore/abstractnotification.go: AbstractNotification.Merge, Add"]}
{"id": "C08", "title": "A notification chain dispatches every change once and in order", "statement": "Dispatching a chain delivers every added notification exactly once, in the order in which they were added, except those merged into an earlier one; nil additions and additions to an empty chain are harmless.", "quantifier": "all finite sequences of notifications added to a chain", "why_tests_cant": "interaction of merging and ordering ranges over all sequences", "anchors": ["ecore/notificationchain.go: Add, Dispatch", "ecore/abstractnotification.go: Add, Dispatch"]}
{"id": "C09", "title": "An EMap behaves as a finite map", "statement": "After any sequence of Put, RemoveKey, Clear and lookups, GetValue(k) is the value of the last Put of k not followed by RemoveKey(k) or Clear, ContainsKey(k) holds exactly for such keys, the entry list has exactly one entry per key, and lookups never change later answers.", "quantifier": "all keys and values, all finite sequences of map operations, any moment of the first lookup", "why_tests_cant": "the lookup cache is filled lazily, so correctness depends on when the first lookup happens in the history", "anchors": ["ecore/basicemap.go: BasicEMap.Put, RemoveKey, GetValue, ContainsKey, initDataMap, doAdd, doRemove, doClear"]}
{"id": "C10", "title": "Map lookups and entry list never disagree", "statement": "For every key, GetValue and ContainsKey agree with the entries obtained by iterating the map, after any sequence of map operations and of list operations on the entries.", "quantifier": "all finite sequences mixing Put/RemoveKey with Add/Remove/Set/Clear of entries", "why_tests_cant": "two data structures must agree after every history", "anchors": ["ecore/basicemap.go: doAdd, doRemove, basicEMapList.DidSet"]}
{"id": "C100", "title": "An object is found in its resource by the ID it was given", "statement": "SetEObjectID gives an object an ID, GetEObjectID returns it, and GetEObject of the resource with this ID gives the object if no other has it, and no longer with the ID it had before; what GetEObject gives has the ID. This is so for every type an ID attribute can have, with and without an ID manager.", "quantifier": "for all resources, objects, types of ID attributes of dynamic packages and texts", "why_tests_cant": "Tests use IDs that are simple words; the ID goes through the conversion of its type, and which objects share one then depends on all texts.", "anchors": ["ecore/ecoreutils.go:16-36", "ecore/eresource_impl.go:301-323", "ecore/eobjectidmanager_impl.go:41-63", "ecore/efactory_ext.go:46-144"]}
{"id": "C101", "title": "References written as fragments are read as the objects they name", "statement": "A reference to objects of the same document is written as an attribute that names the objects, by ID or by path. Reading the document gives the reference exactly these objects, in the same order, whatever their IDs are.", "quantifier": "for all resources, IDs, and non-empty lists of objects", "why_tests_cant": "Tests use IDs of letters and digits; whether the names are told apart depends on every character of every ID.", "anchors": ["ecore/xmlencoder.go:512-548", "ecore/xmldecoder.go:580-660", "ecore/eresource_impl.go:236-251"]}
{"id": "C102", "title": "A binary document has the objects that are saved, and of the others only their URIs", "statement": "Saving a resource, or a single object, as a binary document writes everything it contains, at any depth, with its values, and nothing of any other object but its class and its URI: the document is the same whatever the values of the objects outside are.", "quantifier": "for all metamodels, graphs of objects, options, resources and objects written alone, and all changes of the objects outside", "why_tests_cant": "A test compares the documents of a few models; it cannot show that no document depends on the values of an object outside, whatever the references are.", "anchors": ["ecore/binaryencoder.go:94-125", "ecore/binaryencoder.go:194-375", "ecore/binarycodec.go:60-133"]}
{"id": "C103", "title": "An object written alone is read as an object of its own", "statement": "Writing one object with the XML codec and reading the document again, in its resource or another one, gives a new object with copies of everything it contains. References between the objects written are references between the copies. The resource that is used to read, its objects and the objects its IDs lead to are not changed, and a reference that cannot be read is reported as an error.", "quantifier": "for all trees of objects, references, resources with and without ID manager, and options of the decoder", "why_tests_cant": "What a reference becomes depends on what the fragment leads to at the time its element is read, in a resource that has the originals or not; tests compare a few documents in one resource.", "anchors": ["ecore/xmldecoder.go:129-142", "ecore/xmldecoder.go:215-222", "ecore/xmldecoder.go:517-537", "ecore/xmldecoder.go:583-656", "ecore/xmldecoder.go:737-748", "ecore/xmlencoder.go:122-130", "ecore/xmlencoder.go:220-226", "ecore/eresource_impl.go:236-352", "ecore/uniqueidmanager.go:44-96"]}
{"id": "C104", "title": "The key and value of a map entry are its features of these names", "statement": "For a map entry of a class known at run time, GetKey and GetValue are what EGet gives for the features called key and value of its class, SetKey and SetValue are ESet of these features, and entries used by these methods are independent pairs: what is got is what was set last. This is so after any change of the class, and after SetEClass.", "quantifier": "for all classes, all sequences of class changes, creations, SetEClass and accesses", "why_tests_cant": "The features are looked up once and kept, and the values are found by position; tests use one class that does not change.", "anchors": ["ecore/dynamicemapentry_impl.go:3-36", "ecore/dynamiceobject_impl.go:41-89", "ecore/eclass_ext.go:138-169", "ecore/eclass_ext.go:470-477", "ecore/efactory_ext.go:31-44", "ecore/basiceobjectmap.go:68-74"]}
{"id": "C105", "title": "An error of the database is not taken for a value", "statement": "Get of the SQL store gives back the value that was set last, and IsSet whether it is the default; if the database fails to execute a statement, this is told and not given back as a value, and once the database works again the store does so too: what is set is stored and what is stored is got.", "quantifier": "for all sequences of Get, Set, IsSet and UnSet of single-valued features, with failures of the database at any statement", "why_tests_cant": "Tests use a database that works, or one that is closed; which statements fail, and what depends on them later, cannot be enumerated.", "anchors": ["ecore/sqlstore.go:1352-1568", "ecore/sqlbase.go:127-265"]}
{"id": "C106", "title": "A document is read with the version, the encoding and the text it was written with", "statement": "A document written by an XML encoder with a version (SetXMLVersion) and an encoding (SetEncoding) is read by an XML decoder: GetXMLVersion and GetEncoding give the version and the encoding set, and the text is the text written; an encoding that is not known is an error. Any declaration that XML allows is understood.", "quantifier": "for all versions, all names of encodings, all texts and all sets of known encodings", "why_tests_cant": "Tests write ASCII texts with the default encoding; the text that is lost depends on the encoding and on the characters together.", "anchors": ["ecore/xmlencoder.go:80-81", "ecore/xmlencoder.go:100-106", "ecore/xmlencoder.go:156-159", "ecore/xmldecoder.go:84-117", "ecore/xmldecoder.go:803-835"]}
{"id": "C107", "title": "A container that is a proxy is replaced by the object it stands for", "statement": "EContainer, or EGet of the container reference, of an object whose container is a proxy gives the object the proxy stands for, and it is the container from then on, in the same feature; the proxy no longer has the object; nothing else changes; asking again gives the same. A proxy that cannot be resolved is given as it is. Observers of the object are told once that its container reference was resolved; the new container has the object.", "quantifier": "for all objects, containers, features with and without opposite, values of the containment feature, sets of observers", "why_tests_cant": "Tests use one mocked container and one feature number; the effects depend on the feature the object is in and on what the container has.", "anchors": ["ecore/abstracteobject.go:101-121", "ecore/abstracteobject.go:277-288", "ecore/abstracteobject.go:661-667", "ecore/abstracteobject.go:753-779", "ecore/abstracteobject.go:854-877"]}
{"id": "C108", "title": "A list call that the database refuses does nothing, and tells so", "statement": "For a many-valued feature in the SQL store: while the database executes the statements, the calls do what they do for lists in memory. When the database fails to execute a statement of a call, the lists of all objects stay as they were and the answer is none that could be true: an error is not taken for an index, a size or a value; calls made after it work again.", "quantifier": "for all histories of calls on all objects of the table, all failures at any statement of any call, all sizes of lists", "why_tests_cant": "Tests run on a database that works; failures at the second or third statement of a call, and what all later calls do, are not reached.", "anchors": ["ecore/sqlstore.go:1352-1361", "ecore/sqlstore.go:1568-1746", "ecore/sqlstore.go:1861-1987", "ecore/sqlstore.go:1989-2121", "ecore/sqlbase.go:127-265"]}
{"id": "C109", "title": "A metamodel built by program is the one the program describes", "statement": "After any sequence of the factory's Create…, Create…FromContainer and Create…FromContainerAndClassID calls and of a package's InitEClass, InitEAttribute, InitEReference, InitEOperation, AddEParameter, InitEDataType, InitEEnum and AddEEnumLiteral calls, there are exactly the elements that were created. Each is in the container and list it was created in, in order of creation, with the ID it was given; each getter returns what was last said of the element, and Ecore's default where nothing was said. A call fails only if its arguments make no sense.", "quantifier": "for all sequences of calls, with all arguments, on any number of packages and elements", "why_tests_cant": "Tests initialise one element at a time; that a call leaves all other elements as they are, whatever the order of the calls, is a statement about all programs.", "anchors": ["ecore/ecorefactory_impl.go:126-318", "ecore/epackage_ext.go:82-158", "ecore/etypedelement_impl.go:36-162", "ecore/estructuralfeature_impl.go:38-181"]}
{"id": "C11", "title": "Resource IDs identify objects uniquely", "statement": "In an ID manager, after any sequence of Register, UnRegister and SetID: if GetEObject(id) = o then GetID(o) = id, two different registered objects never have the same ID, and an unregistered object keeps its ID when registered again.", "quantifier": "all finite sequences of Register/UnRegister/SetID with arbitrary objects and IDs", "why_tests_cant": "bijection between two maps over all histories", "anchors": ["ecore/uniqueidmanager.go: UniqueIDManager.Register, UnRegister, SetID, setObjectID"]}
{"id": "C110", "title": "An incremental ID is the same in all its forms", "statement": "IDs are passed to SetID and GetEObject of an incremental ID manager as a text or an integer of any type. An object that is given a number in one form has that number as its ID and is found under every other form of it. A value that is no ID is an error that changes nothing, and no object is found under it; nil takes the ID away. After a document was read whose objects have different IDs, in any forms, each object is found under its ID and the next registered object gets a new, larger one.", "quantifier": "all states of the manager, all objects, all texts and integers of all widths, all documents of any length", "why_tests_cant": "the forms of a number are unbounded (signs, leading zeros, widths), and the boundary between accepted numbers and lost ones is only met at 2^63", "anchors": ["ecore/uniqueidmanager.go:44-56", "ecore/uniqueidmanager.go:88-114", "ecore/uniqueidmanager.go:184-228"]}
{"id": "C111", "title": "A factory creates objects of the class it is asked for, or refuses", "statement": "Create of a factory gives an object whose EClass is the class that was passed, for the classes of the package of the factory that are not abstract, and panics for all others; the object is a map entry exactly if the class is one of entries.", "quantifier": "all classes, of any package or none, with any ID; all packages of factories", "why_tests_cant": "tests create objects of some classes with the factory of their package; the claim is about all classes and wrong factories", "anchors": ["ecore/efactory_ext.go:31-44", "ecore/ecorefactory_impl.go:88-124", "ecore/eclassifier_impl.go:66-94"]}
{"id": "C12", "title": "Incremental IDs are never reused for a new object", "statement": "An incremental ID manager gives each newly registered object an ID different from every ID it gave or accepted before (as long as the 64 bit counter does not wrap).", "quantifier": "all finite sequences of Register/UnRegister/SetID calls", "why_tests_cant": "freshness is a property of the whole history", "anchors": ["ecore/uniqueidmanager.go: IncrementalIDManager"]}
{"id": "C13", "title": "Tree iteration visits each node once in preorder", "statement": "EAllContents and the tree iterator yield every transitively contained object exactly once, parents before their children and siblings in order, the root being included only when asked for; they terminate on every finite tree and HasNext does not influence the sequence.", "quantifier": "all finite trees of any depth and fan out", "why_tests_cant": "an explicit stack machine must agree with recursion for every shape", "anchors": ["ecore/etreeiterator.go: treeIterator", "ecore/abstracteobject.go: EAllContents"]}
{"id": "C14", "title": "Typed traversal finds exactly the instances", "statement": "EAllContentsWithClass(o,c) yields exactly the objects contained in o whose class is c.", "quantifier": "all metamodels (class graphs) and all instance trees", "why_tests_cant": "skipping subtrees by class tables must be right for every class graph and every instance", "anchors": ["ecore/eallcontents.go: newEAllContentsWithClass.., findNext", "ecore/ecoreutils.go: EAllContentsWithClass"]}
{"id": "C15", "title": "The contents view is a consistent list", "statement": "The list returned by EContents/ECrossReferences presents exactly the set values of the contained features in feature order: its Size, Get, IndexOf, Contains, Empty, ToArray and iterator all describe the same sequence.", "quantifier": "all feature configurations (single, many, unset, empty) and all values", "why_tests_cant": "six independent loops over features must agree for every configuration", "anchors": ["ecore/econtentslist.go: eContentsList"]}
{"id": "C16", "title": "URI normalisation is idempotent and removes dot segments", "statement": "Normalize of a URI resolves '.' and '..' segments: no '..' remains except at the front, no '.' remains except one leading guard in front of a relative path whose first segment contains a colon, no empty segment remains, and Normalize is idempotent; it does not change scheme, authority, query or fragment, never panics and always terminates.", "quantifier": "all paths over all strings", "why_tests_cant": "in place buffer algorithm over arbitrary strings", "anchors": ["ecore/uri.go: normalize, needsNormalization, split, removeDots, maybeAddLeadingDot, join"]}
{"id": "C17", "title": "Relativize and Resolve are inverse", "statement": "For base and target URIs, base.Resolve(base.Relativize(target)) designates the same location as target.", "quantifier": "all pairs of hierarchical URIs", "why_tests_cant": "ranges over all path pairs", "anchors": ["ecore/uri.go: Resolve, Relativize, resolvePath"]}
{"id": "C18", "title": "Parsing a URI does not depend on earlier parsing", "statement": "ParseURI(s) and NewURIFromComponents return the same components for the same argument whatever URIs were created before.", "quantifier": "all strings and all histories of URI creations", "why_tests_cant": "a process wide cache makes the result a function of history", "anchors": ["ecore/uri.go: ParseURI, NewURIFromComponents"]}
{"id": "C19", "title": "An object is in exactly the container that lists it", "statement": "For dynamic objects, after any sequence of ESet/EUnset/list operations on containment and container features: an object is a value of at most one containment feature of at most one object, and EContainer/EContainingFeature of an object designate exactly that owner and feature.", "quantifier": "all object graphs reachable by any finite sequence of operations", "why_tests_cant": "invariant of a mutable graph over all histories", "anchors": ["ecore/abstracteobject.go: eDynamicPropertiesSet, eDynamicPropertiesUnset, EInverseAdd, EInverseRemove, EBasicSetContainer, EBasicRemoveFromContainer", "ecore/basiceobjectlist.go: inverseAdd, inverseRemove"]}
{"id": "C20", "title": "Bidirectional references stay symmetric", "statement": "For two references that are opposites, after any sequence of ESet/EUnset/list operations, a is in b's value of the reference exactly when b is in a's value of the opposite.", "quantifier": "all object graphs reachable by any finite sequence of operations, single/single, single/many and many/many opposites", "why_tests_cant": "handshaking between two ends must hold after every history", "anchors": ["ecore/abstracteobject.go: eDynamicPropertiesInverseAdd, eDynamicPropertiesInverseRemove", "ecore/basiceobjectlist.go"]}
{"id": "C21", "title": "Compact objects store the same information as plain objects", "statement": "Reading any field (container, container feature, adapters, deliver flag, proxy URI, contents caches, properties) of a compact object returns the value last written to that field, and writing one field never changes another.", "quantifier": "all finite sequences of writes of nil and non nil values to all fields", "why_tests_cant": "bit packed variable length storage: interference only shows for particular combinations of fields", "anchors": ["ecore/compacteobject_impl.go: getField, setField, fieldIndex, addField, removeField, ESetInternalContainer, ESetProxyURI"]}
{"id": "C22", "title": "Binary serialisation round-trips", "statement": "Decoding the bytes produced by the binary encoder yields an object graph isomorphic to the encoded one: same classes, same attribute values, same containment order, same cross references including shared and cyclic ones.", "quantifier": "all object graphs over all metamodels with serialisable data", "why_tests_cant": "sharing, cycles and first occurrence interning make the stream depend on the whole graph", "anchors": ["ecore/binaryencoder.go: encodeObject, encodeClass, encodePackage, encodeFeatureValue, encodeURI", "ecore/binarydecoder.go: decodeObject, decodeClass, decodePackage, decodeFeatureValue"]}
{"id": "C23", "title": "Loading a reference list keeps its order", "statement": "After decoding a many valued reference, the list contains the references in the order in which they were saved, also when the opposite end has already added some of them.", "quantifier": "all lists and all subsets already present", "why_tests_cant": "depends on which elements were resolved earlier in the stream", "anchors": ["ecore/binarydecoder.go: decodeObjects"]}
{"id": "C24", "title": "XML namespace prefixes are lexically scoped", "statement": "While reading XML, the URI of a prefix is the one of the innermost enclosing declaration, declarations disappear when their element ends, a declaration never fails and reports whether its element already declared the prefix, and the end of an element returns exactly the declarations of that element.", "quantifier": "all well nested sequences of push/declare/pop/lookups", "why_tests_cant": "stack reuse after pop appears only on particular nestings", "anchors": ["ecore/xmlnamespaces.go: pushContext, popContext, declarePrefix, getURI, getPrefix"]}
{"id": "C25", "title": "The XML writer produces well nested elements", "statement": "For every balanced sequence of startElement/addAttribute/addContent/addNil/endElement/endEmptyElement calls the text produced is a well formed sequence of tags whose nesting is the nesting of the calls.", "quantifier": "all balanced call sequences of any depth", "why_tests_cant": "well formedness of the output for all trees", "anchors": ["ecore/xmlstring.go: xmlString"]}
{"id": "C26", "title": "A URI fragment leads back to its object", "statement": "For every object contained in a resource, resource.GetEObject(resource.GetURIFragment(o)) is o.", "quantifier": "all containment trees with any number of roots, any feature names and indexes", "why_tests_cant": "path encoding and decoding must be inverse for every tree", "anchors": ["ecore/eresource_impl.go: GetURIFragment, GetEObject, getObjectByPath, getObjectForRootSegment", "ecore/abstracteobject.go: EURIFragmentSegment, EObjectForFragmentSegment"]}
{"id": "C27", "title": "Fragments of model elements lead back to the element", "statement": "For classifiers, features, annotations and other named elements, EObjectForFragmentSegment(EURIFragmentSegment(f,o)) is o whatever the names are.", "quantifier": "all names (including special characters, dots and digits, empty names), all sibling lists", "why_tests_cant": "string escaping over arbitrary names", "anchors": ["ecore/emodelelement_ext.go: EObjectForFragmentSegment, EURIFragmentSegment"]}
{"id": "C28", "title": "A resource knows whether it is loaded", "statement": "A resource is loaded from a Load which found something to decode, or from the first addition to its contents, until Unload, the removal of its last object or Clear; a resource with contents is always loaded; loading a loaded resource decodes nothing and changes nothing; Unload empties the contents; observers are told each change of the flag once and in order.", "quantifier": "all sequences of Load/Unload/content modifications", "why_tests_cant": "state machine over all histories", "anchors": ["ecore/eresource_impl.go: LoadWithReader, Unload, BasicSetLoaded, resourceContents.DidAdd/DidRemove/DidClear"]}
{"id": "C29", "title": "Package lookups prefer the local registry and fall back to the delegate", "statement": "GetPackage(uri)/GetFactory(uri) return the locally registered package when there is one and otherwise exactly what the delegate returns; RegisterPackage/UnregisterPackage change the answer for that URI only.", "quantifier": "all registration histories, chains of registries of any length", "why_tests_cant": "all histories and all delegate chains", "anchors": ["ecore/epackageregistry_impl.go"]}
{"id": "C30", "title": "Codec lookup uses protocol, then extension, then default", "statement": "GetCodec(uri) is the codec registered for the scheme if any, else the one for the file extension, else the default extension codec, else what the delegate answers.", "quantifier": "all registration histories and URIs", "why_tests_cant": "decision logic over all configurations", "anchors": ["ecore/ecodecregistry_impl.go: GetCodec"]}
{"id": "C31", "title": "A content adapter listens to exactly the containment tree", "statement": "After adding a content adapter to an object, and after any change of containment lists notified to it, the adapter is attached exactly once to every object of the containment tree and to no object that was removed from it.", "quantifier": "all trees and all sequences of containment changes", "why_tests_cant": "invariant over all histories", "anchors": ["ecore/econtentadapter.go"]}
{"id": "C32", "title": "A copy equals its original and shares nothing with it", "statement": "Copy(o) is structurally equal to o according to Equals, contains no object of the original containment tree, and later changes of the copy do not affect the original.", "quantifier": "all object trees, all metamodels with inheritance", "why_tests_cant": "ranges over all metamodels and trees", "anchors": ["ecore/deepcopy.go", "ecore/deepequal.go"]}
{"id": "C33", "title": "Equals distinguishes objects that differ", "statement": "Equals(a,b) is an equivalence relation and is false whenever the two objects differ in class or in the value of some non derived feature, inherited or not.", "quantifier": "all pairs of objects, all metamodels", "why_tests_cant": "ranges over all metamodels and trees", "anchors": ["ecore/deepequal.go: deepEqual"]}
{"id": "C34", "title": "Feature IDs and features correspond", "statement": "For every class c and feature f of its all features, c.GetEStructuralFeature(c.GetFeatureID(f)) is f, inherited features come first, IDs are within the feature count, and a foreign feature has ID -1.", "quantifier": "all class hierarchies without cycles, including multiple inheritance", "why_tests_cant": "recursive computation over all hierarchies", "anchors": ["ecore/eclass_ext.go: initEAllStructuralFeatures, GetFeatureID, GetEStructuralFeature"]}
{"id": "C35", "title": "Derived class lists always reflect the current model", "statement": "GetEAllStructuralFeatures, GetEAllAttributes, GetEAllReferences, GetEAllContainments, GetEAllCrossReferences and GetEAllSuperTypes return what the current features and super types of the class and its ancestors define, whatever was read or modified before.", "quantifier": "all sequences of reads and of feature / super type modifications of any class of the hierarchy", "why_tests_cant": "cache invalidation across a hierarchy over all histories", "anchors": ["ecore/eclass_ext.go: setModified, eSuperAdapter.NotifyChanged, initEAll*"]}
{"id": "C36", "title": "IsSuperTypeOf is the reflexive transitive closure of the super type relation", "statement": "a.IsSuperTypeOf(b) holds exactly when b is a or b reaches a by following ESuperTypes.", "quantifier": "all acyclic class hierarchies", "why_tests_cant": "reachability over all hierarchies", "anchors": ["ecore/eclass_ext.go: IsSuperTypeOf, initEAllSuperTypes"]}
{"id": "C37", "title": "Caching a store list is transparent", "statement": "A list backed by a store returns the same results with and without cache, for every sequence of operations including switching the cache on and off; its Size always is the number of elements of the store.", "quantifier": "all stores behaving as sequences, all finite operation sequences, all moments of cache switches", "why_tests_cant": "two representations must agree after every history", "anchors": ["ecore/estorelist.go: perform*, SetCache, SetEStore, Size"]}
{"id": "C38", "title": "The SQL store keeps list order", "statement": "Insertions, bulk insertions, moves and removals by index on a stored list have the effect of the same operation on a sequence: reading back ordered by the stored index gives that sequence.", "quantifier": "all lists, all finite sequences of Add/AddAll/Move/Remove/Set/Clear with valid indexes", "why_tests_cant": "order keys are computed numerically from their neighbours; errors need particular histories", "anchors": ["ecore/sqlstore.go: getInsertIdx, doAdd, doAddAll, doMove, doRemove, doIndexOf"]}
{"id": "C39", "title": "Store operations on the same data execute in call order", "statement": "Two operations of the SQL store that touch the same object feature, one of them being a write, are executed in the order in which they were called, for every scheduling of the goroutines.", "quantifier": "all sequences of calls and all interleavings of their asynchronous execution", "why_tests_cant": "schedules cannot be enumerated by tests", "anchors": ["ecore/sqlstore.go: scheduleOperation, registerOperation, unregisterOperation, objectFeaturesIterator"]}
{"id": "C40", "title": "Reading a single value gives the last value set", "statement": "Get and IsSet of a single valued feature return what the last Set/UnSet of that feature stored, whether the write is still pending or already executed.", "quantifier": "all call sequences, all interleavings of pending writes", "why_tests_cant": "result must not depend on how far the asynchronous writes progressed", "anchors": ["ecore/sqlstore.go: Get, IsSet, getLastOperation, SetContainer, UnSet"]}
{"id": "C41", "title": "A failed store operation does not block later ones", "statement": "After an operation of the SQL store fails, later operations on the same object are still executed and WaitOperations terminates.", "quantifier": "all call sequences and failure points", "why_tests_cant": "fault injection at every point of every history", "anchors": ["ecore/sqlstore.go: scheduleOperation"]}
{"id": "C42", "title": "XML prefixes are allocated uniquely and the allocation terminates", "statement": "When saving, each package namespace gets a prefix that is bound to that namespace only, whatever the number of packages with the same preferred prefix; when loading, every prefix declaration is recorded. Both terminate.", "quantifier": "all sequences of packages / declarations", "why_tests_cant": "termination and injectivity for any number of clashes", "anchors": ["ecore/xmlencoder.go: getPrefix", "ecore/xmldecoder.go: startPrefixMapping"]}
{"id": "C43", "title": "An unknown XML element does not affect its siblings", "statement": "When a document contains an element for an unknown feature, an error is reported and all other elements are attached to the same objects as if the unknown element were absent.", "quantifier": "all element trees and all positions of unknown elements", "why_tests_cant": "stack discipline over all documents", "anchors": ["ecore/xmldecoder.go: startElement, endElement, handleFeature, processObject"]}
{"id": "C44", "title": "Values survive conversion to text", "statement": "For the built in data types and for enums with distinct literals, CreateFromString(ConvertToString(v)) is v.", "quantifier": "all values of each type, all enums", "why_tests_cant": "infinite value domains", "anchors": ["ecore/efactory_ext.go: CreateFromString, ConvertToString"]}
{"id": "C45", "title": "The unbounded operation queue is first in first out", "statement": "Values sent to the queue are received exactly once, in order; a sender is never blocked for ever; all values sent before Close are received before the end of the stream; Close by one goroutine while another one sends is safe.", "quantifier": "all interleavings of sends, receives and close", "why_tests_cant": "schedules", "anchors": ["ecore/sqlstore.go: infiniteChannel, manage"]}
{"id": "C46", "title": "Adapters are told their target exactly while they are attached", "statement": "After any sequence of additions and removals of adapters on a notifier, an adapter's target is that notifier exactly when the adapter is in the adapter list, and each notification is delivered once to each attached adapter in order of attachment.", "quantifier": "all sequences of adapter list operations", "why_tests_cant": "callbacks must match list changes for every history", "anchors": ["ecore/abstractenotifier.go: notifierAdapterList, ENotify", "ecore/abstracteadapter.go"]}
{"id": "C47", "title": "URI mapping terminates and follows the prefix rules", "statement": "URIConverter.Normalize terminates and applies the prefix replacements of the URI map until none applies.", "quantifier": "all URI maps and URIs", "why_tests_cant": "termination over all maps", "anchors": ["ecore/euriconverter_impl.go: Normalize", "ecore/uri.go: ReplacePrefix"]}
{"id": "C48", "title": "Resolving an override picks an operation that overrides", "statement": "GetOverride(op) is an operation of the class that overrides op and is nil exactly when there is none; an operation never overrides itself.", "quantifier": "all hierarchies and operations", "why_tests_cant": "ranges over all hierarchies", "anchors": ["ecore/eclass_ext.go: initOperationToOverrideMap", "ecore/eoperation_ext.go: IsOverrideOf"]}
{"id": "C49", "title": "List callbacks describe every change", "statement": "A list subclass which mirrors the list by applying each DidAdd/DidSet/DidRemove/DidMove/DidClear callback at the position it is given always has the contents of the list.", "quantifier": "all lists and all sequences of list operations", "why_tests_cant": "the position given for each element of every bulk operation on every list has to be right", "anchors": ["ecore/basicelist.go: doAdd, doAddAll, doInsertAll, doMove, doRemove, doRemoveRange, doSet, doClear"]}
{"id": "C50", "title": "Authority is the authority part of the URI", "statement": "Authority() of a URI with a host returns the text user:password@host:port of its authority, for every URI.", "quantifier": "all component tuples", "why_tests_cant": "the text of the host or of the user may occur anywhere in the URI", "anchors": ["ecore/uri.go: Authority"]}
{"id": "C51", "title": "A feature is found by its current name", "statement": "GetEStructuralFeatureFromName(s) is a feature of the class (own or inherited) whose name is s, an own one if there is an own one, and nil exactly when no feature has that name, whatever was read, added, removed or renamed before.", "quantifier": "all class hierarchies without cycles and all histories of reads and modifications", "why_tests_cant": "name lookup cache over all histories", "anchors": ["ecore/eclass_ext.go: initNameToFeatureMap, GetEStructuralFeatureFromName"]}
{"id": "C52", "title": "Concurrent use of derived class lists never deadlocks", "statement": "Goroutines reading derived lists of classes (all features, all super types, ...) and modifying classes at the same time never block each other for ever.", "quantifier": "all hierarchies without cycles, all numbers of goroutines and all interleavings", "why_tests_cant": "depends on the interleaving and on the shape of the hierarchy", "anchors": ["ecore/eclass_ext.go: initEAll*, setModified"]}
{"id": "C53", "title": "Every namespace prefix written in XML is declared", "statement": "When an object tree is saved to XML, every namespace prefix that occurs in a tag or attribute name is declared in the root element, for the namespace it stands for.", "quantifier": "all prefix maps and all sequences of names, type attributes and nil values", "why_tests_cant": "the declarations are collected while writing and depend on the whole history", "anchors": ["ecore/xmlencoder.go: getPrefix", "ecore/xmlencoder.go: saveNil", "ecore/xmlencoder.go: saveTypeAttribute"]}
{"id": "C54", "title": "WaitOperations waits for the operations of the object", "statement": "When WaitOperations(object) of the SQL store returns without error, every operation on the object that was called before has been executed; WaitOperations(nil) waits for the operations of all objects.", "quantifier": "all call sequences and interleavings", "why_tests_cant": "schedules of goroutines cannot be enumerated", "anchors": ["ecore/sqlstore.go: WaitOperations", "ecore/sqlstore.go: scheduleOperation"]}
{"id": "C55", "title": "ESet and list operations take effect", "statement": "For dynamic objects, after ESet(f,v) EGet(f) is v, after EUnset(f) EGet(f) is empty, and after an operation on the list of a reference the list has changed as a sequence without duplicates does, whatever containers and opposites had to be changed.", "quantifier": "all metamodels with single inheritance, all histories", "why_tests_cant": "interaction of containment and opposites over unbounded graphs", "anchors": ["ecore/abstracteobject.go: ESet", "ecore/abstracteobject.go: EUnset", "ecore/basicenotifyinglist.go: doAdd"]}
{"id": "C56", "title": "EContainmentFeature is a containment", "statement": "EContainmentFeature() of a contained object is the containment reference of its container that holds it.", "quantifier": "all metamodels and histories", "why_tests_cant": "depends on metamodel and history", "anchors": ["ecore/abstracteobject.go: EContainmentFeature"]}
{"id": "C57", "title": "Text gives the value it stands for", "statement": "CreateFromString gives, for every text, the value of the data type that the text stands for, or fails; it never yields a value that is not of the data type.", "quantifier": "all texts, all built in data types", "why_tests_cant": "infinite set of texts, including malformed and out of range ones", "anchors": ["ecore/efactory_ext.go: CreateFromString", "ecore/ecorefactory_impl.go: CreateFromString and the functions it calls"]}
{"id": "C58", "title": "SQL statements are executed in the order of the calls", "statement": "Statements given to the database by concurrent operations are executed in the order of the calls whenever one of them changes a table that the other one uses; every call returns, and the failure of a statement affects this call only.", "quantifier": "all sequences of calls, all interleavings of their goroutines, all statements and tables, any number of calls", "why_tests_cant": "the interleavings of goroutines cannot be enumerated by tests", "anchors": ["ecore/sqlbase.go: executeSqlite, newQuery, executeQuery", "ecore/sqlstore.go: All"]}
{"id": "C59", "title": "A resource saved in a SQL database is loaded as it was", "statement": "Saving a resource with the SQL codec and loading the database gives the objects of the resource: each object once, with its class, its ID and the values of all its features that are not transient; references are references to the objects loaded, or proxies with the URI of the object.", "quantifier": "all metamodels, all graphs of objects (cycles, shared references, inheritance), all values, options and orders in which the classes are read", "why_tests_cant": "a test saves a few resources; the numbers given to objects, the tables of the hierarchy, the order of the rows of a list and the references to objects saved later depend on the whole graph", "anchors": ["ecore/sqlencoder.go: EncodeResource, encodeObject, encodeFeatureValue, encodeClass, encodePackage, encodeEnumLiteral", "ecore/sqldecoder.go: DecodeResource, decodeFeatureValue, decodeTableFeature, decodeColumnFeatures", "ecore/sqlschema.go", "ecore/sqlcodec.go: getSQLCodecFeatureKind"]}
{"id": "C60", "title": "A resource saved as XMI is loaded as it was", "statement": "Saving a resource as XMI and loading the text gives the objects of the resource: the same tree of objects with the same classes, the same data, the same contents and references in the same order; references to objects of other documents are loaded as proxies with their URIs; no error is reported.", "quantifier": "all metamodels (packages, abstract types, ID attributes), all trees of objects of any size and depth, all values, references in any direction, with and without an ID manager, with and without deferred resolution", "why_tests_cant": "a test saves a few documents; prefixes, escapes, fragments of references to objects that are not yet read, positions in lists and white space depend on the whole document", "anchors": ["ecore/xmlencoder.go", "ecore/xmiencoder.go", "ecore/xmlstring.go", "ecore/xmldecoder.go", "ecore/xmidecoder.go", "ecore/eresource_impl.go: GetEObject, GetURIFragment", "ecore/abstracteobject.go: EURIFragmentSegment, EObjectForFragmentSegment"]}
{"id": "C61", "title": "A resource belongs to exactly the resource set that lists it", "statement": "After any sequence of calls on resource sets, their lists of resources and resources, a resource set lists exactly the resources that answer it as their resource set, each one once. A call on a list of resources changes it as a sequence without repetitions and takes the resources it brings in out of the resource set they were in; the other resources stay where they are, in their order.", "quantifier": "all numbers of resource sets and resources, all sequences of calls (add, insert, replace, remove, move, create, load), of any length", "why_tests_cant": "a test moves a few resources between two sets; two data structures (the list and the back pointer) are updated by callbacks of each other in every call", "anchors": ["ecore/eresourceset_impl.go: newResourcesList, inverseAdd, inverseRemove, CreateResource", "ecore/eresource_impl.go: BasicSetResourceSet", "ecore/basicenotifyinglist.go"]}
{"id": "C62", "title": "GetResource gives the one resource with the URI", "statement": "GetResource answers the resource of the package registered for the URI, or else the first resource of the set with the same normalized URI; when it loads on demand it creates the resource if there is none, and loads it. It gives the same resource again for the same URI, reads a document once, never creates two resources with one URI, and ends even if documents refer to each other in cycles.", "quantifier": "all resource sets, URIs, documents and references between them (cycles included), with and without a map of URIs, all sequences of calls", "why_tests_cant": "loading a document calls GetResource again before the first call returns; tests cover one level and no cycles", "anchors": ["ecore/eresourceset_impl.go: GetResource, CreateResource, SetURIResourceMap", "ecore/eresource_impl.go: Load, LoadWithOptions", "ecore/euriconverter_impl.go: Normalize"]}
{"id": "C63", "title": "Resolving a proxy gives the object of its URI", "statement": "Resolving a proxy loads what its URI needs and gives the object at the URI; if this is a proxy too it is resolved in turn; the result is not a proxy unless there is no object at its URI. Resolving the proxy again gives the same object.", "quantifier": "all proxies and chains of proxies of any length, all resource sets and documents, whatever is loaded in between", "why_tests_cant": "tests resolve one proxy to an object that is already loaded; chains through documents that are loaded on the way change the resource set while it is searched", "anchors": ["ecore/ecoreutils.go: ResolveInObject, ResolveInResource, ResolveInResourceSet", "ecore/eresourceset_impl.go: GetEObject"]}
{"id": "C64", "title": "A list shows its proxies as the objects they stand for", "statement": "A list of references that resolves proxies behaves as the list of the objects its proxies stand for: Get, IndexOf, Contains, ToArray and every change give and leave what the same calls give and leave on the list of the resolved objects. Reading never changes what is shown; each RESOLVE notification tells position, proxy and object, an observer that applies them has the list, and reading again notifies nothing.", "quantifier": "all lists mixing proxies and objects, all sequences of calls of any length", "why_tests_cant": "tests resolve one proxy in a list of mocks; which positions are resolved when depends on the call, on the object looked for and on all earlier calls", "anchors": ["ecore/basiceobjectlist.go: IndexOf, doGet, ToArray, RemoveAll, resolve", "ecore/abstractelist.go: Add, AddAll, Insert, InsertAll, MoveObject, Remove, Set, getNonDuplicates"]}
{"id": "C65", "title": "Lists do not share their elements", "statement": "A call on one list changes no other list, also when lists are given to each other or to themselves as collections; every list has the elements it would have if the lists were separate sequences. The array given by ToArray keeps its elements whatever is done with other lists, and while its own list is only extended or cleared.", "quantifier": "all programs over any number of lists, any growth policy of append, all contents", "why_tests_cant": "whether two slices share an array depends on capacities, which depend on the whole history and on the Go runtime; tests look at one list with one history", "anchors": ["ecore/basicelist.go: doAdd, doAddAll, doInsert, doInsertAll, doMove, doRemove, doRemoveRange, doClear, ToArray", "ecore/abstractelist.go: getNonDuplicates, AddAll, InsertAll, RemoveAll", "ecore/immutableEList.go: ToArray"]}
{"id": "C66", "title": "An object with a store is a record, whatever the cache", "statement": "For an object whose values are in a store, reading a feature gives the last value set and IsSet tells whether there is one, the same with and without cache and whenever the cache is switched; when the store is taken away the object keeps the values. Its container is the one set last, also for another object made for the same data and in a store given later.", "quantifier": "all sequences of reads, writes, switches of the cache and of the store, all classes and stores", "why_tests_cant": "tests check single calls against mocks of the store with one cache setting; stale or lost values need particular sequences of cache and store switches", "anchors": ["ecore/estoreeobject_impl.go: SetEStore, SetCache, EDynamicGet, EDynamicSet, EDynamicUnset, EDynamicIsSet, EInternalContainer, initializeContainerFromStore, setContainerInStore"]}
{"id": "C67", "title": "Questions about a metamodel are answered for the metamodel as it is", "statement": "Whatever edits are made to a package (classifiers added, inserted, removed, renamed; instance types, literals, serializability and defaults of types changed; types and default texts of features changed; another factory) and whatever was asked before, GetEClassifier gives a classifier of the package with the name if there is one, GetClassifierID the position of the classifier, GetEReferenceType the class that is the type of the reference, GetDefaultValue the default of the type or of the feature, and the lookups of literals the first literal that fits, all as the metamodel is at that moment.", "quantifier": "all metamodels, all conversions of texts, all sequences of edits and questions", "why_tests_cant": "Each question leaves something remembered in the package, a classifier or a feature; whether a later answer is wrong depends on the order of edits and questions, of which tests try a few.", "anchors": ["ecore/epackage_ext.go:17-69", "ecore/eclassifier_impl.go:66-83", "ecore/eclassifier_ext.go:24-33", "ecore/ereference_ext.go:30-50", "ecore/edatatype_ext.go:30-74", "ecore/eenum_ext.go:23-62", "ecore/eenumliteral_ext.go:22-27", "ecore/estructuralfeature_ext.go:27-67"]}
{"id": "C68", "title": "Extended names are those of the annotations", "statement": "Whatever edits are made to a metamodel and whatever was asked before, ExtendedMetaData.GetName gives the name in the annotation of extended meta data of the element, or its plain name; GetNamespace the namespace in the annotation, where ##targetNamespace stands for the URI of the package, or nothing; GetType a classifier of the package with the extended name if there is one; GetDocumentRoot the class with the empty extended name; and the map features are the first references with the names xmlns:prefix and xsi:schemaLocation.", "quantifier": "all metamodels, all sequences of edits and questions to one ExtendedMetaData", "why_tests_cant": "One ExtendedMetaData is shared by all loads and saves of a processor and remembers names, namespaces and partial maps of types; whether an answer is right depends on the whole history of edits and questions.", "anchors": ["ecore/extendedmetadata.go:11-196", "ecore/xmlprocessor.go:54"]}
{"id": "C69", "title": "A JSON document tells what was saved", "statement": "Objects that differ in a class, in an ID, in which features are set, in a value, in the order of a list or in the target of a reference are saved by the JSON codec as different documents, to any depth of containment; no object in a document has the same key twice; and saving comes to an end.", "quantifier": "for all metamodels, all objects with any values, nested to any depth, and both with and without IDs", "why_tests_cant": "Tests compare the documents of a few objects with expected texts; they do not show that no two different objects share a document, and the cases in which they do (a second root, nil in a list, an object in no resource) are those no expected text was written for.", "anchors": ["ecore/jsonencoder.go:34-200", "ecore/jsoncodec.go:30-77"]}
{"id": "C70", "title": "Remove takes an object out of its tree, ancestors are found", "statement": "Remove takes an object from its container and from its resource, whatever containment it is in, and changes nothing else: the values of all references and the contents of all resources are the same but for the object, in the same order. IsAncestor(a, o) tells whether o is a or inside of it, GetAncestor(o, c) is the nearest object of class c among o and the objects it is in, nil if there is none.", "quantifier": "for all metamodels, all sequences of calls that build the tree, all objects and classes, at any depth", "why_tests_cant": "Tests remove one object from one container of mocks that answer with the expected feature; they do not run Remove on real containments with an opposite, and no test says that nothing else changes.", "anchors": ["ecore/ecoreutils.go:173-205", "ecore/abstracteobject.go:174-212", "ecore/abstracteobject.go:541-629"]}
{"id": "C71", "title": "Relative paths lead back", "statement": "The path of an object relative to an object it is in, given to GetEObject with that object, gives the object again. The URI GetURI gives for an object in no resource leads to the object once its root is the first object of a resource. A path that leads nowhere gives nil.", "quantifier": "for all metamodels and trees, all pairs of an object and one above it, at any depth", "why_tests_cant": "Tests follow paths of one or two segments of mocks; they do not show that the segments computed upwards are those that lead downwards, at any depth, nor what happens with the empty path.", "anchors": ["ecore/ecoreutils.go:48-103", "ecore/abstracteobject.go:887-924"]}
{"id": "C72", "title": "Notifications tell all changes of references", "statement": "An observer of an object that applies its notifications in order always has the values EGet gives for its references: each notification announces as old value what the observer has, and no change is left out, also when the object changes because a call on another object moves it to another container or takes over an opposite. Observing objects does not change what calls do.", "quantifier": "for all metamodels with opposites and containment, all sets of observed objects, all sequences of ESet, EUnset and list calls on any objects", "why_tests_cant": "A call changes up to five features of four objects, whose notifications are merged in one chain. Tests look at one call on mocks; they do not show that merging never loses a change whatever the calls before.", "anchors": ["ecore/abstracteobject.go:391-629", "ecore/abstracteobject.go:650-877", "ecore/basicenotifyinglist.go:149-347", "ecore/abstractnotification.go:50-127", "ecore/notificationchain.go:23-45"]}
{"id": "C73", "title": "Reflective access follows the declared metamodel", "statement": "On every element of a metamodel (class, attribute, reference, operation, package, enum, annotation, …), ESet of a changeable feature with a value of its declared type makes EGet return that value, EUnset makes EGet return the declared default, EIsSet tells whether the value is the default, and no other feature changes but those computed from it. Each change of a single-valued feature is announced once with the feature, the old value and the new one. EGet changes no value, and with resolution replaces a proxy by its target. IDs that are not declared are refused.", "quantifier": "for all 14 kinds of elements, all their declared features, all states of the element, all values of the declared type, all sequences of writes", "why_tests_cant": "There are 160 features with four switches each, written by a generator and overridden by hand in the extensions; tests touch each accessor with one value on a fresh element and do not compare the four switches with the declarations, nor look at the other features.", "anchors": ["ecore/ecorepackage_impl.go:946-1458", "ecore/eattribute_impl.go:77-118", "ecore/eclass_impl.go:318-510", "ecore/eclassifier_impl.go:138-204", "ecore/estructuralfeature_impl.go:183-277", "ecore/etypedelement_impl.go:164-242", "ecore/ereference_impl.go:148-229", "ecore/estructuralfeature_ext.go:27-77", "ecore/abstracteobject.go:259-275", "ecore/abstracteobject.go:401-417"]}
{"id": "C74", "title": "Metamodel elements are in one place, and both ends agree", "statement": "After any sequence of calls on the containment lists of the metamodel (eAnnotations, contents, details, eOperations, eStructuralFeatures, eLiterals, eParameters, eClassifiers, eSubPackages, eTypeArguments, eBounds) and of SetEFactoryInstance, SetELowerBound, SetEUpperBound, SetEModelElement and SetEPackage, every element is in at most one containment feature, its EContainer is the owner of that feature, and GetEContainingClass, GetEPackage, GetEEnum, GetEOperation, GetESuperPackage and GetEModelElement answer that owner, or nil when there is none. Each call changes the lists as described: the element appears where it was put, disappears from where it was, and nothing else changes.", "quantifier": "all metamodel objects of all fourteen concrete classes, all sequences of well-typed calls", "why_tests_cant": "The generated classes have their own switch per feature on either side; agreement of the two ends is an invariant over all interleavings of calls from either side and all pairs of features, of which tests exercise a few with mocks.", "anchors": ["ecore/abstracteobject.go:650-876", "ecore/basiceobjectlist.go:120-145", "ecore/eannotation_impl.go:228-253", "ecore/epackage_impl.go:255-296", "ecore/egenerictype_impl.go:313-325", "ecore/eclass_impl.go:539-563"]}
{"id": "C75", "title": "A map with a store is a finite map, with or without cache", "statement": "A map of an object with a store answers GetValue, ContainsKey, ContainsValue, ToMap and RemoveKey with what the calls of Put, RemoveKey and Clear made so far leave, the entries found in the store counting as Puts made before; switching the cache on or off at any time changes no answer. When entries are also added, replaced or removed through the list API, lookups agree with the entries read by iterating over the map.", "quantifier": "for all stores with entries of distinct keys, all maps with or without store, all sequences of map calls, list calls, changes of store and switches of the cache", "why_tests_cant": "lookups use a Go map built at the first lookup and updated by callbacks, which come from two different places according to whether there is a cache; the number of orders of lookups, switches and changes is unbounded, and tests check each call with one state of the cache", "anchors": ["ecore/estoremap.go:12-91", "ecore/estorelist.go:120-383", "ecore/basicemap.go:71-187", "ecore/basiceobjectmap.go:56-62"]}
{"id": "C76", "title": "Objects in a SQL store have the values they were given", "statement": "When a SQL store is made on an empty database and objects are put into it, set, added to, searched, moved, removed and read through the store, Get, Set, Remove, Move, IsSet, IsEmpty, Size, Contains, IndexOf, LastIndexOf, ToArray, GetRoots and GetContainer answer what the operations made so far require of the objects: the same objects come back, at the same places, with the same container and feature, and objects contained in what is stored are stored with it. On any database, what is read once is read again as the same objects until something is written. An object that keeps its SQL ID can be unregistered and used again.", "quantifier": "for all metamodels, all graphs of contained objects of any depth and width, all databases and all sequences of operations", "why_tests_cant": "an object is found by one of two tables of IDs or by a row that may be there or not, storing an object stores all it contains recursively while IDs are given, and reading makes objects; tests cover few graphs, and none puts together storing, reading and unregistering in other orders", "anchors": ["ecore/sqlstore.go:341-420", "ecore/sqlstore.go:888-979", "ecore/sqlstore.go:1379-2290", "ecore/sqlencoder.go:263-455", "ecore/sqldecoder.go:278-425"]}
{"id": "C77", "title": "Storing objects from several goroutines stores each once", "statement": "When several goroutines store objects in one SQL database through one encoder, whatever the order they proceed in: every object, class, package and enumeration literal gets one row, no two goroutines write the same one, they never wait for each other for ever, and when they are done all that was asked for, with all that it needs, is written and no lock is left.", "quantifier": "for all sets of goroutines, all things they store, all acyclic structures of what needs what, all interleavings and all answers of the pool of mutexes", "why_tests_cant": "Interleavings of goroutines are not under the control of a test; a mutex returned to the pool while it is locked, or a map written by two goroutines, shows only in rare schedules.", "anchors": ["ecore/sqlencoder.go:120-180", "ecore/sqlencoder.go:280-418", "ecore/sqlencoder.go:457-501", "ecore/sqlencoder.go:506-645", "ecore/sqlencoder.go:648-679", "ecore/sqldecoder.go:278-340"]}
{"id": "C78", "title": "SQL statements mean what they are for, whatever the names of the metamodel", "statement": "For every metamodel, the tables and columns of a database are named after the classes and features, so that different classes, lists and features have different tables and columns; every statement the codec and the store write is read by SQLite as the statement that was meant, on the tables and columns that were meant, and what it does to the rows is what the operation on the feature or list means (value at a position, all values, number, membership, first and last position, replacing, removing, clearing, inserting, moving), without touching the lists of other objects.", "quantifier": "all metamodels (names of classes and features, kinds of features), all options, all tables, rows, lists and positions", "why_tests_cant": "Names are arbitrary texts that are pasted into statements: keywords, spaces, quotes, letters in different case and names that run into each other each need their own case, and a statement is right only for all contents of a table.", "anchors": ["ecore/sqlschema.go:8-564", "ecore/sqlstore.go:30-320", "ecore/sqldecoder.go:1093-1094"]}
{"id": "C79", "title": "An object has an ID in its resource, and listeners are told, exactly while it is in the resource", "statement": "The ID manager of a resource has an ID for exactly the objects that are in the contents of the resource or inside such an object, whatever way they got there or left (contents, lists, single references, container references, moves between resources); EResource() of an object is that resource; a listener of the resource is told attached and detached in turn, the last thing it was told saying whether the object is in the resource; an object that leaves and comes back has the same ID.", "quantifier": "all sequences of calls on contents, containment lists, single containment references and container references, all trees, all numbers of resources, with and without managers and listeners", "why_tests_cant": "An object enters or leaves a resource in many ways, alone or with everything inside it, and each way has its own order of detaching, moving and attaching; a test covers one tree and one move.", "anchors": ["ecore/eresource_impl.go:79-97", "ecore/eresource_impl.go:336-390", "ecore/abstracteobject.go:127-171", "ecore/abstracteobject.go:782-877", "ecore/uniqueidmanager.go:44-124"]}
{"id": "C80", "title": "References are restored from XML documents, at both ends and in order", "statement": "Loading an XML or XMI document of a consistent object graph gives every reference of every object the values it had when it was saved, in the same order, wherever the objects stand in the document (a reference may point to objects that come later) and whatever the opposite of the reference is; unresolved references are reported as errors; references given by elements with href to the same document are replaced by the objects; after loading any document both ends of opposites say the same.", "quantifier": "all metamodels with opposites (single or many valued at either end, containment, transient), all graphs, all orders of elements, with and without IDs, with and without deferred resolution", "why_tests_cant": "What is done with an ID depends on the order of elements, on the multiplicity and transience of both ends and on what the opposite has already done; a test covers one metamodel and one document.", "anchors": ["ecore/xmldecoder.go:447-515", "ecore/xmldecoder.go:583-655", "ecore/xmldecoder.go:657-748", "ecore/xmlencoder.go:228-362"]}
{"id": "C81", "title": "A truncated or damaged binary document is reported as an error", "statement": "Loading a binary document that was cut anywhere, or where an item has another type than the one that was written, ends, adds an error to the resource and adds nothing to its contents; it never panics and never hangs, and a document that is not what was written does not load without an error.", "quantifier": "for all metamodels, resources, documents, positions of the cut or of the damaged item, and whatever follows it", "why_tests_cant": "A test cuts one document at some places; the claim is about every document, every position, and streams that are not documents at all.", "anchors": ["ecore/binarydecoder.go:69-103", "ecore/binarydecoder.go:105-113", "ecore/binarydecoder.go:115-189", "ecore/binarydecoder.go:191-280", "ecore/binarydecoder.go:282-294", "ecore/binarydecoder.go:340-476", "ecore/binarydecoder.go:478-621"]}
{"id": "C82", "title": "Serialize and Close take every change made before", "statement": "When SQLStore.Close closes the connections, every operation called on the store before Close has been executed; Close returns after the operations have come to an end, closes the store once, and no call panics before. The bytes given by SQLStore.Serialize contain every change called before Serialize and no later one.", "quantifier": "all sequences of calls of the store, of Serialize and Close, all interleavings of the goroutines of the operations with Close, all results of the operations", "why_tests_cant": "Close, WaitOperations and the goroutines of the operations interleave; a change is lost only if an operation fails, or is called, at a certain moment of Close, and a unit test sees one interleaving", "anchors": ["ecore/sqlstore.go:2359-2379 (Close)", "ecore/sqlstore.go:998-1034 (WaitOperations)", "ecore/sqlstore.go:2280-2342 (Serialize, doSerialize)", "ecore/sqlstore.go:1121-1275 (scheduleOperation)"]}
{"id": "C83", "title": "Save and Load do what they report", "statement": "If Save of a resource reports no error, then Load of the same URI, by any resource and whatever happens before except another Save to that URI, gives the same contents without error. Save changes nothing but that document and the errors, which are those of this call; a Save that fails leaves the document as it was. Load changes no document.", "quantifier": "all sequences of Save, Load, Unload, SetURI and changes of contents of all resources, all handlers and codecs, all failures of the file system (no access, no room, Close fails, no temporary file)", "why_tests_cant": "failures of the file system at every possible place are needed, with every codec and every earlier state of the documents and of the errors", "anchors": ["ecore/eresource_impl.go:419-470 (LoadWithOptions, LoadWithReader)", "ecore/eresource_impl.go:505-546 (SaveWithOptions, SaveWithWriter)", "ecore/fileurihandler.go:29-39 (CreateWriter)", "ecore/memoryurihandler.go:14-20", "ecore/xmlencoder.go:108-152 (EncodeResource)", "ecore/binaryencoder.go:96-118 (EncodeResource)", "ecore/jsonencoder.go:33-42 (EncodeResource)", "ecore/sqlencoder.go:687-787 (NewSQLWriterEncoder)", "ecore/sqlencoder.go:866-903 (EncodeResource)"]}
{"id": "C84", "title": "The text of a URI gives back its components", "statement": "Parsing the text of a URI gives the components of this URI, whether it comes from ParseURI, a builder, CreateFileURI, CreateMemoryURI, TrimFragment, TrimQuery, Normalize or Resolve, so that a URI can be stored as text; a builder changes exactly the parts which were set.", "quantifier": "all texts, all component tuples, all sequences of operations on URIs", "why_tests_cant": "components are decoded when parsed and written without escapes; which texts survive depends on every character of every component", "anchors": ["ecore/uri.go: URIBuilder", "ecore/uri.go: NewURIFromComponents", "ecore/uri.go: ParseURI", "ecore/uri.go: CreateFileURI", "ecore/uri.go: CreateMemoryURI", "ecore/uri.go: TrimFragment, TrimQuery, Normalize, Resolve"]}
{"id": "C85", "title": "The layout of an SQL database is kept in it", "statement": "An SQL database is read and extended in the layout it was made with (codec version, column of object IDs, columns of containers), whatever the OBJECT_ID, CONTAINER_ID and CODEC_VERSION options of those who open it later: documents saved by the SQL encoder load with the classes and IDs of their objects, stores opened on a database read back class, ID and container of every object written before by any encoder or store, opening does not change the database, and a database of another version is refused unchanged.", "quantifier": "for all makers (encoder or store), all sequences of later store sessions with their options and objects, and all options of the reader", "why_tests_cant": "Tests open a database with the options it was made with; the claim is about every combination of options of writers and readers and any number of sessions.", "anchors": ["ecore/sqlencoder.go:197-261", "ecore/sqlencoder.go:797-903", "ecore/sqldecoder.go:146-194", "ecore/sqldecoder.go:278-340", "ecore/sqldecoder.go:742-1003", "ecore/sqlstore.go:719-854", "ecore/sqlschema.go:350-410", "ecore/sqlbase.go:281-311"]}
{"id": "C86", "title": "Observers may change the model while they are notified", "statement": "When observers call the model from NotifyChanged: every observer is told each change of its notifier exactly once, in the order in which the changes were made, so that applying what it was told to a copy taken before gives what the notifier shows, at the moment it is told and when the calls have returned; the calls return.", "quantifier": "for all observers (arbitrary reactions depending on everything they were told and on the current values), all adapter lists, all sequences of calls on lists and values of any number of notifiers, all numbers of steps", "why_tests_cant": "The order depends on how the nested calls interleave with the notification loops that have not ended; tests use passive observers or a single reaction, while the claim is about every set of reactions and every depth of nesting, also for executions that never end.", "anchors": ["ecore/abstractenotifier.go:117-129", "ecore/basicenotifyinglist.go:97-138", "ecore/elistiterator.go:18-30", "ecore/abstracteobject.go:487-497", "ecore/notificationchain.go:37-45"]}
{"id": "C87", "title": "Objects saved as XML with extended names are loaded as they were", "statement": "An object saved as an XML document (not XMI) with extended meta data gives a document with one root element and no text outside of it, and loading it gives the object: a document root is loaded as it was; another object is loaded as it was when document roots are suppressed, and as the only value of a new document root otherwise; no error is reported.", "quantifier": "all metamodels with names and extended names, namespaces, document roots and inheritance, all trees of objects with data and contained objects of any size and depth", "why_tests_cant": "The name of the root element depends on the document root, on super types and on namespaces; every element and attribute is found again by its local name among all names and extended names of a class; a test fixes one schema.", "anchors": ["ecore/xmlencoder.go:161-203, 228-479, 664-692", "ecore/xmldecoder.go:170-229, 295-581, 760-780", "ecore/extendedmetadata.go:47-69, 129-147", "ecore/xmlstring.go:62-140"]}
{"id": "C88", "title": "Two-way references loaded from a SQL database are as they were saved", "statement": "Objects that are loaded from a SQL database have in each of their two-way references the objects they had when they were saved, once each, lists in the order they had, whichever class is read first and however the goroutines that read the classes interrupt each other; and the goroutines come to an end.", "quantifier": "all sets of pairs of opposite references, single or many-valued, all consistent graphs of objects, all orders in which lists and values are read, all interleavings of any number of goroutines", "why_tests_cant": "The order in which classes are read is the order of a Go map and the interruptions of goroutines are up to the scheduler: a test sees one of them.", "anchors": ["ecore/sqldecoder.go:1010-1145", "ecore/basicenotifyinglist.go:149-213", "ecore/abstractelist.go:51-96", "ecore/abstracteobject.go:443-488, 650-779", "ecore/sqlcodec.go:83-112"]}
{"id": "C89", "title": "Users of different SQL databases do not affect each other", "statement": "Resources are loaded from and saved to SQL documents, and stores are opened, changed and closed, at the same time, each in a file or in memory: each resource is loaded with the rows of its document, each document has the rows of its resource, the file of a store has the rows it had and the new ones; other files are not touched, and no temporary file and no database in memory is left. A document that is not a database is reported as an error.", "quantifier": "all numbers of users of all kinds, all names, all documents, all interleavings of their steps", "why_tests_cant": "Databases in memory are shared by name in the whole process, and temporary files by path: whether two users meet depends on names and on timing, a test uses one database at a time.", "anchors": ["ecore/sqldecoder.go:584-719, 805-859", "ecore/sqlencoder.go:687-787, 866-906", "ecore/sqlstore.go:623-713", "ecore/sqlcodec.go:32-57"]}
{"id": "C90", "title": "Dynamic objects behave as records, whatever their class", "statement": "For objects made from classes known at run time (dynamic and reflective objects), the value set for a feature is the one got for it until it is set again, no other feature is affected, IsSet and EContents agree with it, and EContainer/EContainingFeature of a contained object name the object and feature it was put under; this holds for any class hierarchy, also after SetEClass and after changes of the classes.", "quantifier": "all class tables, all sequences of creations, SetEClass, class changes, ESet/EUnset/EGet/EIsSet, list Add/Remove, EContents and EContainingFeature on any objects", "why_tests_cant": "values are kept by position and containers as positions; whether every feature stays at its position depends on the hierarchy and on the whole history of class changes", "anchors": ["ecore/dynamiceobject_impl.go:20-89", "ecore/reflectiveeobject_impl.go:20-68", "ecore/abstracteobject.go:218-629", "ecore/abstracteobject.go:650-768", "ecore/basiceobject_impl.go:86-93", "ecore/eclass_ext.go:126-169"]}
{"id": "C91", "title": "SQL databases keep classes and enumeration values from session to session", "statement": "An object stored in a SQL database has, whenever the database is opened again and however often, the class with the name and package URI it was stored with (GetRoots gives all roots), and an enumeration attribute has the literal it was set to until it is set or unset; unset it has the default value and is not set. The database has one entry for each package, class and literal.", "quantifier": "all metamodels (and versions of them from session to session), all sequences of creating and reading objects, setting, getting, unsetting enumeration attributes and reopening the database with a new or the old ID manager", "why_tests_cant": "numbers of classes and literals are cached in maps that are filled by writing or by reading, in any order and over any number of sessions; tests open a database once or twice with one fixed model", "anchors": ["ecore/sqlencoder.go:436-569", "ecore/sqlencoder.go:648-680", "ecore/sqldecoder.go:196-386", "ecore/sqldecoder.go:484-500", "ecore/sqlstore.go:331-420", "ecore/sqlstore.go:1379-1566", "ecore/sqlschema.go:371-421", "ecore/eenum_ext.go:24-62", "ecore/efactory_ext.go:41-98"]}
{"id": "C92", "title": "Immutable lists and maps do not change", "statement": "A list made by NewImmutableEList has for ever the elements of the slice it was made of: Get, Size, Contains, IndexOf, ToArray and the iterators answer for them, and every modifying method panics. A map made by NewImmutableEMap also has for ever the keys and values its entries had: GetValue, ContainsKey, ContainsValue and ToMap agree with the entries.", "quantifier": "all slices, entries and programs that go on using the slices, what ToArray and ToMap give, and the entries", "why_tests_cant": "whether a list can change depends on which slices share an array, after any number of make, append and reslice steps before and after it was made; tests make a list of a literal and read it once", "anchors": ["ecore/immutableEList.go:18-180", "ecore/immutableemap.go:3-50", "ecore/elistiterator.go:12-30"]}
{"id": "C93", "title": "An entry of a map of objects is in the map of its container and in no other", "statement": "The entries of a map of objects (details of an annotation, map features) are objects contained by the owner of the map. For all programs with maps and containment lists of any number of owners: an entry is in one map or list at most; when it is added, inserted or set in another one it leaves the one it was in; its container is the owner of the place it is in; removed entries have no container; a Put in one map does not change another.", "quantifier": "for all programs of new entries, Put, RemoveKey, Add, Insert, Set, Remove, RemoveAt, Clear and reads on the maps and lists of any number of owners", "why_tests_cant": "tests move objects between lists; an entry that goes from a map to another, and what each of both says later, depends on the whole history of calls", "anchors": ["ecore/basiceobjectmap.go:12-74", "ecore/basicemap.go:71-132", "ecore/eannotation_impl.go:241-253", "ecore/abstracteobject.go:650-670", "ecore/abstracteobject.go:753-760", "ecore/basiceobjectlist.go:121-143", "ecore/basicenotifyinglist.go:175-265"]}
{"id": "C94", "title": "Resolving all references of a resource set loads what is reachable and resolves what exists", "statement": "ResolveAllInResourceSet ends when finitely many documents are reachable; the set then has exactly the resources that the references of its documents lead to, each one loaded if it can be read, and every reference of every object in it is the object that stands at the place the document says, or a proxy if there is no such object. A second call changes nothing. ResolveAllInResource does this for the references of one resource.", "quantifier": "for all contents of documents (with cycles, unreadable documents, references to missing objects) and all programs of creating, getting, loading, unloading and resolving resources", "why_tests_cant": "which documents load depends on the whole graph of references and on the order of the resources in the set while the list grows under the iterator", "anchors": ["ecore/ecoreutils.go:126-147", "ecore/ecoreutils.go:207-233", "ecore/eresourceset_impl.go:69-134", "ecore/eresource_impl.go:419-491", "ecore/elistiterator.go:18-31", "ecore/basiceobjectlist.go:82-112"]}
{"id": "C95", "title": "An object contained across resources is in one container and stays in its resource", "statement": "A containment list or reference that resolves proxies may hold a proxy for an object of another resource. For all programs with any number of owners, resources and proxies: the container of an object has it in the list or reference told, and no other list or reference has it; reading replaces a proxy by its object, which has the owner as container then, and changes nothing else that is shown; an object stays in the contents of its resource when it gets or loses a container, and is in the contents of one resource at most; no object is inside itself.", "quantifier": "for all programs of reads, Add, Insert, Set, Remove, RemoveAt, Clear, setting and unsetting single references, and adding to and removing from resources, for all maps of proxies to objects", "why_tests_cant": "whether two entries stand for one object, and which of them was read first, depends on the whole history of calls; tests resolve one proxy in one list", "anchors": ["ecore/basiceobjectlist.go:72-143", "ecore/abstracteobject.go:128-172", "ecore/abstracteobject.go:277-342", "ecore/abstracteobject.go:441-485", "ecore/abstracteobject.go:650-667", "ecore/abstracteobject.go:782-864", "ecore/basicenotifyinglist.go:157-265", "ecore/eresource_impl.go:79-97"]}
{"id": "C96", "title": "Invoking an operation by reflection calls the method it stands for", "statement": "EInvoke(operation, arguments) on an object whose class has the operation, own or inherited at any depth, calls the method of that operation with those arguments; an operation the class does not have is an error and calls nothing.", "quantifier": "every hierarchy of classes of any depth and any number of operations, every class of the Ecore model and every operation, every list of arguments", "why_tests_cant": "The method is chosen by the number of the operation through a chain of switches; the numbers depend on the whole hierarchy above the class, and there is a pair of class and operation for each, with any arguments.", "anchors": ["ecore/abstracteobject.go:229-238", "ecore/abstracteobject.go:632-647", "ecore/eclass_ext.go:183-194", "ecore/eclass_ext.go:354-380", "ecore/dynamiceobject_impl.go:80-82", "ecore/eclass_impl.go:512-537", "ecore/ecorepackage_impl.go:977-1159"]}
{"id": "C97", "title": "The unresolved view of a list is the list as it stands", "statement": "GetUnResolvedList gives a list that shows the proxies themselves: no call on it resolves anything, and its calls are those of a sequence without repetitions of the objects as they are. It is the same list: what is changed through one is changed in the other, at every moment both show the same, and an object is in the list once.", "quantifier": "every list with any proxies, every sequence of calls on the list and on its view in any order", "why_tests_cant": "The calls on the list and on its view interleave in unboundedly many ways, each resolving some proxies and changing positions; a test tries a few.", "anchors": ["ecore/basiceobjectlist.go:57-64", "ecore/basiceobjectlist.go:145-190", "ecore/delegatingelist.go:3-87", "ecore/abstractelist.go:51-243", "ecore/estorelist.go:556-573"]}
{"id": "C98", "title": "A content adapter follows proxies as they are resolved", "statement": "An EContentAdapter attached to an object, resource or resource set observes the whole containment tree below it. When the tree has proxies (objects of other resources that are not loaded yet), an adapter created to resolve proxies is attached to the objects they stand for; and whichever contained proxies are resolved later by reading a feature, the adapter leaves the proxy and is attached to the object and everything below it, so that it keeps observing exactly the containment tree of its target.", "quantifier": "for all containment trees with proxies, both settings of resolveProxies, and all sequences of attaching, containment changes (including adding proxies) and proxy resolutions", "why_tests_cant": "tests resolve one proxy of a mock; whether the adapter stays on exactly the tree for every interleaving of changes and resolutions is an invariant over unbounded histories, and the default setting breaks it only for proxies that exist before attaching", "anchors": ["ecore/econtentadapter.go:42-69", "ecore/econtentadapter.go:71-89", "ecore/econtentadapter.go:112-160", "ecore/econtentadapter.go:162-193"]}
{"id": "C99", "title": "A processor's documents are in one resource set and find each other", "statement": "A processor made with a resource set puts every document that is loaded, read from a reader or saved as an object into this set. A reference to a document then goes to the resource the document was loaded into, from whatever document it is and whatever was done in between. What was saved last is what the next Load of the URI gives. Without a resource set a processor behaves the same with a set of its own.", "quantifier": "for all stored documents, all sequences of GetResourceSet, Load, LoadWithReader, SaveObject, Save and resolving references, with and without a resource set", "why_tests_cant": "Tests load one document per processor; which resource a reference reaches depends on all documents loaded before and on the resource sets they went into.", "anchors": ["ecore/xmlprocessor.go:52-129", "ecore/xmiprocessor.go:20-45", "ecore/eresourceset_impl.go:68-124"]}
