{
 "claims": [
  {
   "property": "C01",
   "status": "partial",
   "theorems": [
    "Verif.Props.C01_unique_list_nodup_partial",
    "Verif.Props.C01_move_past_end_violated",
    "Verif.Props.C01_addAll_live_violated"
   ],
   "note": "Proved for every history except calls hitting two defects of the code, each shown by a violated theorem: Move past the end with spare slice capacity, and (if the external linkedhashset iterator is live) AddAll/InsertAll of several known elements."
  },
  {
   "property": "C02",
   "status": "partial",
   "theorems": [
    "Verif.Props.C02_list_refines_sequence_partial",
    "Verif.Props.C02_get",
    "Verif.Props.C02_indexOf",
    "Verif.Props.C02_contains",
    "Verif.Props.C02_move_object_violated"
   ],
   "note": "Refinement to mathematical sequences for every history, same two exclusions as C01."
  },
  {
   "property": "C03",
   "status": "partial",
   "theorems": [
    "Verif.Props.C03_move_partial",
    "Verif.Props.C03_move_to_size_violated"
   ],
   "note": "Proved for all positions inside the list and all refused positions; newIndex = size is wrongly accepted (violated theorem)."
  },
  {
   "property": "C04",
   "status": "proved",
   "theorems": [
    "Verif.Props.C04_binarySearch",
    "Verif.Props.C04_binarySearch_found"
   ],
   "note": "For every list and comparison compatible with it."
  },
  {
   "property": "C05",
   "status": "proved",
   "theorems": [
    "Verif.Props.C05_iterator",
    "Verif.Props.C05_iterator_complete",
    "Verif.Props.C05_all"
   ],
   "note": "For every sequence of HasNext/Next calls, and for All()."
  },
  {
   "property": "C06",
   "status": "partial",
   "theorems": [
    "Verif.Props.C06_replay_partial",
    "Verif.Props.C06_unchanged",
    "Verif.Props.C06_silent",
    "Verif.Props.C06_move_past_end_violated"
   ],
   "note": "Every history except moves past the end, which modify the list without notification (violated theorem)."
  },
  {
   "property": "C07",
   "status": "partial",
   "theorems": [
    "Verif.Props.C07_merge_two_removals",
    "Verif.Props.C07_merge_many_removals_partial",
    "Verif.Props.C07_third_removal_violated",
    "Verif.Props.C07_merge_set",
    "Verif.Props.C07_list_set_violated",
    "Verif.Props.C07_across_addition_violated"
   ],
   "note": "SET/UNSET, two removals, and further removals behind the recorded ones; otherwise the code loses a position, merges SETs of different positions and merges across additions (violated theorems)."
  },
  {
   "property": "C08",
   "status": "proved",
   "theorems": [
    "Verif.Props.C08_chain",
    "Verif.Props.C08_chain_no_merge",
    "Verif.Props.C08_linked"
   ],
   "note": "Every sequence of additions; the linked form (AbstractNotification.Add) is proved equal to the chain."
  },
  {
   "property": "C09",
   "status": "proved",
   "theorems": [
    "Verif.Props.C09_answers",
    "Verif.Props.C09_entries",
    "Verif.Props.C09_containsValue"
   ],
   "note": "Answers of GetValue/ContainsKey/Put/RemoveKey/ToMap/ContainsValue against the last-put specification for every history of map calls."
  },
  {
   "property": "C10",
   "status": "partial",
   "theorems": [
    "Verif.Props.C10_lookups_agree_partial",
    "Verif.Props.C10_same_key_violated",
    "Verif.Props.C10_entry_setValue_violated"
   ],
   "note": "Holds while entries have distinct keys and are changed through the map; same-key entries added through the list API and SetValue on an entry leave the lookup stale (violated theorems)."
  },
  {
   "property": "C100",
   "status": "partial",
   "theorems": [
    "Verif.ObjectID.C100_text_partial",
    "Verif.ObjectID.C100_stable_partial",
    "Verif.ObjectID.C100_number_partial",
    "Verif.ObjectID.C100_found_partial",
    "Verif.ObjectID.C100_given_partial",
    "Verif.ObjectID.C100_number_violated",
    "Verif.ObjectID.C100_invalid_violated",
    "Verif.ObjectID.C100_bytes_violated",
    "Verif.ObjectID.C100_empty_violated",
    "Verif.ObjectID.C100_managed_partial",
    "Verif.ObjectID.C100_manager_violated"
   ],
   "note": "Proved: for texts the ID is the one given and the object is found by it and no longer by its old one; for all named types an ID that was read can be given again and is the same; for integers two texts give the same ID exactly if they are the same number; without a manager GetEObject is sound, complete and total when IDs can be read. Violated: of two texts of a number at least one does not find the object; any text beginning with a letter gives an integer ID 0; an ID of bytes can be given but makes every later search that comes past it panic; the empty ID finds an object without ID; with the ID manager an object is found by the text it was given and not by the ID it has, which its URI contains. Parsing and formatting of floating point numbers is a hypothesis."
  },
  {
   "property": "C101",
   "status": "partial",
   "theorems": [
    "Verif.IDRefs.C101_restored_partial",
    "Verif.IDRefs.C101_missing",
    "Verif.IDRefs.C101_space_violated",
    "Verif.IDRefs.C101_slash_violated",
    "Verif.IDRefs.C101_panic_violated",
    "Verif.IDRefs.C101_question_violated"
   ],
   "note": "Proved: objects with unique IDs that have no space, no slash in front and no question mark at the end, and objects without ID whose paths lead to them, are read as they were written. Violated: a reference to an object whose ID has a space is never read as the object; one with a slash in front is looked up as a path; the ID ? makes reading panic; an ID with a question mark at the end and one before is read as another object or none."
  },
  {
   "property": "C102",
   "status": "partial",
   "theorems": [
    "Verif.Binary.C102_resource_partial",
    "Verif.Binary.C102_object_partial",
    "Verif.Binary.C102_complete_partial",
    "Verif.Binary.C102_embedded_violated",
    "Verif.Binary.C102_unattached_violated",
    "Verif.Binary.C102_container_violated"
   ],
   "note": "Proved: the document does not depend on anything outside the saved objects (non-interference), for resources and single objects, if references leave them only where a proxy can be read; everything contained is read (with C22). Violated: references without resolution of proxies embed objects of other resources; objects without resource are embedded; a single object embeds its container."
  },
  {
   "property": "C103",
   "status": "partial",
   "theorems": [
    "Verif.XMLSingle.C103_copy_partial",
    "Verif.XMLSingle.C103_reported",
    "Verif.XMLSingle.C103_originals_violated",
    "Verif.XMLSingle.C103_unattached_violated",
    "Verif.XMLSingle.C103_taken_violated",
    "Verif.XMLSingle.C103_root_violated",
    "Verif.XMLSingle.C103_mixed_violated",
    "Verif.XMLSingle.C103_panic_violated"
   ],
   "note": "Proved (C103_copy_partial): in a resource whose ID manager does not know the IDs, the references of the copies are to the copies, in the same order with deferred resolution, without error, and the resource is unchanged. C103_reported: no reference is lost without an error, whatever the document and resource are. Violated: without IDs all references of the copies are to the originals (C103_originals_violated); of an object outside of the resource no reference is read, each is an error (C103_unattached_violated); in the resource of the original, with an ID manager, the IDs then lead to the copies, which are not in the resource (C103_taken_violated), and references are partly to originals, partly to copies (C103_mixed_violated); with deferred attachment of the root there is no result and no error, and the object is added to the resource (C103_root_violated); with deferred resolution an unresolved reference before one to the object itself makes the decoder panic (C103_panic_violated). References have no opposite here; attributes and containment are left to C43 and C60."
  },
  {
   "property": "C104",
   "status": "partial",
   "theorems": [
    "Verif.DynamicEntry.C104_names_partial",
    "Verif.DynamicEntry.C104_refreshed",
    "Verif.DynamicEntry.C104_pairs_partial",
    "Verif.DynamicEntry.C104_renamed_violated",
    "Verif.DynamicEntry.C104_moved_violated",
    "Verif.DynamicEntry.C104_class_violated",
    "Verif.DynamicEntry.C104_removed_violated"
   ],
   "note": "Proved: the accessors are EGet and ESet of the features with these names in every program that does not change which features of a class have these names (C104_names_partial), and in any state after SetEClass (C104_refreshed); entries are independent pairs as long as classes only get features of other names at the end (C104_pairs_partial). Violated: another feature is called key later (C104_renamed_violated), a feature is put in front (C104_moved_violated), SetEClass to a class with another order (C104_class_violated), the key feature is taken out of the class: panic (C104_removed_violated, for all entries). Features are single-valued attributes without default."
  },
  {
   "property": "C105",
   "status": "partial",
   "theorems": [
    "Verif.SQLErrors.C105_table_partial",
    "Verif.SQLErrors.C105_origin",
    "Verif.SQLErrors.C105_get_violated",
    "Verif.SQLErrors.C105_after_set_violated",
    "Verif.SQLErrors.C105_after_get_violated"
   ],
   "note": "Proved: a table whose statements are executed behaves as a record, whatever fails in other tables (C105_table_partial); whatever fails, what is got is an error or the value after the calls before a certain one (C105_origin). Violated: Get gives the error as the value (C105_get_violated, all states); after one Set that fails, every Get in the table gives an error as value for ever (C105_after_set_violated); after one Get that fails nothing is stored any more, without a sign (C105_after_get_violated). One call after the other, objects that are in the database; lists are not modelled here."
  },
  {
   "property": "C106",
   "status": "partial",
   "theorems": [
    "Verif.XMLDecl.C106_utf8_partial",
    "Verif.XMLDecl.C106_ascii_partial",
    "Verif.XMLDecl.C106_declared_partial",
    "Verif.XMLDecl.C106_unknown",
    "Verif.XMLDecl.C106_version_violated",
    "Verif.XMLDecl.C106_encoding_violated",
    "Verif.XMLDecl.C106_spaces_violated"
   ],
   "note": "Proved: with version 1.0 and UTF-8 any text is read again (every character, through the bytes of UTF-8); with any other known encoding that extends ASCII, any ASCII text; the version and encoding read are those written whenever the document is read; an unknown encoding is an error. Violated: every other version than 1.0 is written but cannot be read; SetEncoding changes the declaration only, the bytes stay UTF-8, so that with an encoding of one byte per character no text outside ASCII is read again (for all texts and tables); spaces around the equals sign hide version and encoding."
  },
  {
   "property": "C107",
   "status": "partial",
   "theorems": [
    "Verif.ProxyContainer.C107_resolved",
    "Verif.ProxyContainer.C107_unchanged",
    "Verif.ProxyContainer.C107_notes_partial",
    "Verif.ProxyContainer.C107_reference",
    "Verif.ProxyContainer.C107_first_violated",
    "Verif.ProxyContainer.C107_absent_violated"
   ],
   "note": "Proved: the resolved object is given and stays the container with the same feature, the proxy loses the object and keeps the others in order, nothing else changes, the second call changes nothing; containers that are no proxies or cannot be resolved are given unchanged; the notifications are exactly those of the proxy and of the container reference (for objects not in feature 0 without opposite); container references follow EContainer. Violated: an object in the first feature of its container, without container reference, always sends RESOLVE for the feature -1, which no class has (the comparison with the base is not strict); the new container is not asked whether it has the object."
  },
  {
   "property": "C108",
   "status": "partial",
   "theorems": [
    "Verif.SQLListErrors.C108_works_partial",
    "Verif.SQLListErrors.C108_atomic_partial",
    "Verif.SQLListErrors.C108_addAll_partial",
    "Verif.SQLListErrors.C108_addAll_violated",
    "Verif.SQLListErrors.C108_answers_violated",
    "Verif.SQLListErrors.C108_after_violated",
    "Verif.SQLListErrors.C108_reads_violated"
   ],
   "note": "Proved: while the database works all calls refine lists in memory, for every history; whatever fails in any state, each call but AddAll changes its list as it should or not at all, and no other list; AddAll leaves a prefix of its values. Violated: AddAll may stop after any number of values and keeps those before; after an error IndexOf gives 0, as if the value was the first one, Size 0, IsEmpty true, Contains false, Remove nil, Get the error as the value; after one call that failed no list of the table changes any more, and after one that could not write none can be read."
  },
  {
   "property": "C109",
   "status": "partial",
   "theorems": [
    "Verif.MetaBuild.C109_values",
    "Verif.MetaBuild.C109_elements",
    "Verif.MetaBuild.C109_lists",
    "Verif.MetaBuild.C109_runs",
    "Verif.MetaBuild.C109_classifierID",
    "Verif.MetaBuild.C109_once_partial",
    "Verif.MetaBuild.C109_literal",
    "Verif.MetaBuild.C109_container",
    "Verif.MetaBuild.C109_again_violated",
    "Verif.MetaBuild.C109_opposite_violated",
    "Verif.MetaBuild.C109_foreign"
   ],
   "note": "Values, elements, lists, IDs and definedness for all programs. A data type initialised again without default value keeps the old one (C109_again_violated); an opposite is set at one end only (C109_opposite_violated). C109_once_partial is the claim for elements that one call speaks of. Factories, generic types and notifications are not in the model."
  },
  {
   "property": "C11",
   "status": "partial",
   "theorems": [
    "Verif.Props.C11_lookup",
    "Verif.Props.C11_distinct_partial",
    "Verif.Props.C11_keeps_id",
    "Verif.Props.C11_shared_id_violated",
    "Verif.Props.C11_detached_id_violated",
    "Verif.Props.C11_address_reuse_violated",
    "Verif.Props.C11_incremental_partial",
    "Verif.Props.C11_attribute_lookup_partial",
    "Verif.Props.C11_attribute_unregistered_partial",
    "Verif.Props.C11_attribute_changed_violated"
   ],
   "note": "Lookup inverse, distinctness for IDs not already owned; SetID with an owned ID, detaching and address reuse break it (violated theorems)."
  },
  {
   "property": "C110",
   "status": "partial",
   "theorems": [
    "Verif.IDForms.C110_set_partial",
    "Verif.IDForms.C110_same",
    "Verif.IDForms.C110_error",
    "Verif.IDForms.C110_nil",
    "Verif.IDForms.C110_others",
    "Verif.IDForms.C110_load",
    "Verif.IDForms.C110_unsigned_violated",
    "Verif.IDForms.C110_negative_violated"
   ],
   "note": "Proved for all numbers an int64 can hold, for errors, nil and documents. Violated: unsigned numbers from 2^63 and negative numbers in any form give no error and leave the object without an ID (C110_unsigned_violated, C110_negative_violated), while the text of such an unsigned number is an error."
  },
  {
   "property": "C111",
   "status": "partial",
   "theorems": [
    "Verif.Factory.C111_dynamic",
    "Verif.Factory.C111_ecore_partial",
    "Verif.Factory.C111_abstract",
    "Verif.Factory.C111_foreign_violated"
   ],
   "note": "Proved for dynamic factories and for the classes of Ecore. Violated: the factory of Ecore goes by the classifier ID alone, so that a class of another package with the same ID gives an object of a class of Ecore (C111_foreign_violated)."
  },
  {
   "property": "C12",
   "status": "proved",
   "theorems": [
    "Verif.Props.C12_fresh_ids",
    "Verif.Props.C12_given_complete"
   ],
   "note": "Every history: fresh IDs are never IDs given before."
  },
  {
   "property": "C13",
   "status": "proved",
   "theorems": [
    "Verif.Props.C13_preorder"
   ],
   "note": "For every finite tree and both root modes, and for every number of calls; termination included."
  },
  {
   "property": "C14",
   "status": "partial",
   "theorems": [
    "Verif.AllContents.C14_sound_partial",
    "Verif.AllContents.C14_terminates_partial",
    "Verif.AllContents.C14_complete_partial",
    "Verif.AllContents.C14_unset_violated",
    "Verif.AllContents.C14_start_class_violated",
    "Verif.AllContents.C14_cycle_violated",
    "Verif.AllContents.C14_subclass_violated"
   ],
   "note": "only contained objects of the class, each at most once, for every metamodel and every well typed tree (C14_sound_partial); exactly those for acyclic metamodels, when the class differs from the class of the object and no object has an unset containment reference beside others (C14_complete_partial). Missing cases are violated: C14_unset_violated (an unset reference hides the others), C14_start_class_violated, C14_cycle_violated, C14_subclass_violated"
  },
  {
   "property": "C15",
   "status": "partial",
   "theorems": [
    "Verif.Props.C15_iterator",
    "Verif.Props.C15_queries_partial",
    "Verif.Props.C15_get_negative_violated"
   ],
   "note": "Iteration and queries for all indexes except negative ones; Get(-1) answers the first element (violated theorem)."
  },
  {
   "property": "C16",
   "status": "partial",
   "theorems": [
    "Verif.URI.C16_normal_form_partial",
    "Verif.URI.C16_segments_partial",
    "Verif.URI.C16_uri_partial",
    "Verif.URI.C16_nul_violated"
   ],
   "note": "All paths without the rune 0: the buffer algorithm equals the segment level normal form; shape, idempotence and unchanged components. With a rune 0 text is lost (violated theorem)."
  },
  {
   "property": "C17",
   "status": "partial",
   "theorems": [
    "Verif.URI.C17_resolve_relativize_partial",
    "Verif.URI.C17_same_path_violated",
    "Verif.URI.C17_directory_violated",
    "Verif.URI.C17_dot_base_violated",
    "Verif.URI.C17_relative_violated",
    "Verif.URI.C17_port_violated"
   ],
   "note": "URIs with scheme and absolute paths, target different from the base and its directory, base not ending in a dot segment, Authority telling the two apart; each excluded case is refuted by a violated theorem."
  },
  {
   "property": "C18",
   "status": "partial",
   "theorems": [
    "Verif.NetURL.C18_clean_partial",
    "Verif.NetURL.C18_trim_violated",
    "Verif.URI.C18_history_partial",
    "Verif.URI.C18_parse_only_partial",
    "Verif.URI.C18_made_violated"
   ],
   "note": "Proved for histories of parsed texts and of clean tuples, with the parser of net/url modelled. Violated when TrimFragment or NewURIFromComponents make a tuple whose text is read as other components."
  },
  {
   "property": "C19",
   "status": "partial",
   "theorems": [
    "Verif.Graph.C19_containment_partial",
    "Verif.Graph.C19_unique_partial",
    "Verif.Graph.C19_unset_list_violated",
    "Verif.Graph.C19_inheritance_violated"
   ],
   "note": "Proved for well typed ESet/EUnset of single valued references and all list calls, opposites mutual, features with the same ID in all classes. Violated by EUnset/ESet(nil) of a list (children keep their container) and with several super classes (the ID of the declaring class is used)."
  },
  {
   "property": "C20",
   "status": "partial",
   "theorems": [
    "Verif.Graph.C20_opposite_partial",
    "Verif.Graph.C20_set_total_partial",
    "Verif.Graph.C20_unset_list_violated",
    "Verif.Graph.C20_inheritance_violated",
    "Verif.Graph.C20_self_violated"
   ],
   "note": "Proved for well typed ESet/EUnset of single valued references and all list calls, opposites mutual and not the reference itself, features with the same ID in all classes; ESet/EUnset never panic. Violated by EUnset of a list, with several super classes, and by a reference that is its own opposite."
  },
  {
   "property": "C21",
   "status": "partial",
   "theorems": [
    "Verif.Compact.C21_storage_partial",
    "Verif.Compact.C21_properties_violated",
    "Verif.Compact.C21_isProxy_violated"
   ],
   "note": "every read after any writes equals a plain record; violated when the container is set while properties are stored (flag mask 0x00FF drops bit 8) and for EIsProxy after ESetProxyURI(nil)"
  },
  {
   "property": "C22",
   "status": "partial",
   "theorems": [
    "Verif.Binary.C22_roundtrip_partial",
    "Verif.Binary.C22_complete_partial",
    "Verif.Binary.C22_object_partial",
    "Verif.Binary.C22_contents_violated",
    "Verif.Binary.C22_proxy_violated",
    "Verif.Binary.C22_uri_violated",
    "Verif.Binary.C22_name_violated"
   ],
   "note": "For every graph of objects (shared, cyclic, with proxies and references to other resources) whose metamodel is found by the reader and whose data survive conversion, encoder and decoder succeed and what is read is isomorphic to what was written: same roots, classes, IDs, values, order and references; foreign objects are read as proxies with their URI. Proved for resources and for single objects. Missing: the bytes of msgpack, opposites set while reading (C23), references to the container may be left out. Violations: contents that are also contained through a resolving reference lose their values; proxies reached through references that do not resolve become plain objects; objects of a resource without URI become empty objects; features with an empty name are not read."
  },
  {
   "property": "C23",
   "status": "partial",
   "theorems": [
    "Verif.BinaryList.C23_order_partial",
    "Verif.BinaryList.C23_order_violated"
   ],
   "note": "the list is a permutation of the saved one without panic; in the saved order exactly if it was empty or complete before (violated otherwise)"
  },
  {
   "property": "C24",
   "status": "partial",
   "theorems": [
    "Verif.Props.C24_scoping_partial",
    "Verif.Props.C24_results_partial",
    "Verif.Props.C24_before_pop_partial",
    "Verif.Props.C24_sibling_violated",
    "Verif.Props.C24_stale_violated",
    "Verif.Props.C24_shadowed_prefix_violated"
   ],
   "note": "Scoping proved for all well nested histories in which no new prefix is declared in the room left by popped declarations; outside of these the code panics or mixes up declarations (violated theorems)."
  },
  {
   "property": "C25",
   "status": "partial",
   "theorems": [
    "Verif.XMLString.C25_text_partial",
    "Verif.XMLString.C25_nesting_partial",
    "Verif.XMLString.C25_escaped",
    "Verif.XMLString.C25_content_violated",
    "Verif.XMLString.C25_unnamed_violated"
   ],
   "note": "Proved: for every forest of elements (any names, attributes, depth), the calls of the encoder write exactly the tag text of that forest and reading the tags back gives the nesting; escaped attribute values contain no markup. Violated: content written by addContent is not escaped; endEmptyElement on an unnamed root writes a stray '/>'."
  },
  {
   "property": "C26",
   "status": "partial",
   "theorems": [
    "Verif.Fragment.C26_path_partial",
    "Verif.Fragment.C26_id_partial",
    "Verif.Fragment.C26_manager_partial",
    "Verif.Fragment.C26_id_violated",
    "Verif.Fragment.C26_manager_violated",
    "Verif.Fragment.C26_feature_violated"
   ],
   "note": "Proved for paths, ID attributes and ID managers under hypotheses about names and IDs; violated for feature names with dots, IDs with a leading slash or question marks, and ID attributes beside an ID manager"
  },
  {
   "property": "C27",
   "status": "partial",
   "theorems": [
    "Verif.Fragment.C27_named_partial",
    "Verif.Fragment.C27_annotation_partial",
    "Verif.Fragment.C27_annotation_violated",
    "Verif.Fragment.C27_feature_partial",
    "Verif.Fragment.C27_escaped_violated",
    "Verif.Fragment.C27_number_violated",
    "Verif.Fragment.C27_at_violated"
   ],
   "note": "Exact characterization for named elements not beginning with @; annotations that are not the first of their source; violated for the first annotation of every source, escaped names, names with a number, names beginning with @"
  },
  {
   "property": "C28",
   "status": "partial",
   "theorems": [
    "Verif.Props.C28_loaded_partial",
    "Verif.Props.C28_nonempty_partial",
    "Verif.Props.C28_notified_partial",
    "Verif.Props.C28_stale_list_violated",
    "Verif.Props.C28_notification_violated"
   ],
   "note": "Proved for every history in which the program works with the list GetContents answers; additions to a list obtained before Unload mark the empty resource as loaded, and a decoder which empties the contents makes the notifications lie (violated theorems)."
  },
  {
   "property": "C29",
   "status": "proved",
   "theorems": [
    "Verif.Props.C29_lookup",
    "Verif.Props.C29_local"
   ],
   "note": "Every chain of registries and every history of calls."
  },
  {
   "property": "C30",
   "status": "proved",
   "theorems": [
    "Verif.Props.C30_codec",
    "Verif.Props.C30_none"
   ],
   "note": "Decision logic for every registry and path, with an independent definition of the extension."
  },
  {
   "property": "C31",
   "status": "partial",
   "theorems": [
    "Verif.ContentAdapter.C31_content_partial",
    "Verif.ContentAdapter.C31_total_partial",
    "Verif.ContentAdapter.C31_add_all_violated",
    "Verif.ContentAdapter.C31_embedded_violated"
   ],
   "note": "after every history of operations the adapter is attached exactly to the containment tree of its target, resources and cross-resource containment included (C31_content_partial), and every operation is handled (C31_total_partial). Violated for AddAll of an object and its own content (C31_add_all_violated) and for adapters embedded in another one (C31_embedded_violated)"
  },
  {
   "property": "C32",
   "status": "partial",
   "theorems": [
    "Verif.DeepCopy.C32_equals_partial",
    "Verif.DeepCopy.C32_separate",
    "Verif.DeepCopy.C32_independent_partial",
    "Verif.DeepCopy.C32_all_equals_partial",
    "Verif.DeepCopy.C32_all_separate",
    "Verif.DeepCopy.C32_all_independent_partial",
    "Verif.DeepCopy.C32_shared_violated",
    "Verif.DeepCopy.C32_container_violated",
    "Verif.DeepCopy.C32_immutable_violated",
    "Verif.DeepCopy.C32_root_violated",
    "Verif.DeepCopy.C32_inherited_violated",
    "Verif.DeepCopy.C32_outside_violated",
    "Verif.DeepCopy.C32_all_violated"
   ],
   "note": "C32_equals_partial: Copy ends, whatever the order of the map of copies, and Equals(o, Copy(o)) is true, for consistent graphs with any numbers of objects, depths, cycles of references and opposites, when no container reference of o is set, references with an opposite stay inside the tree, and children of dynamic objects in lists have no container reference. C32_separate: the copy and everything it contains is new, it has no container, no existing object or list is changed. C32_independent_partial: after any sequence of changes to the copy the originals are unchanged, except for lists of values of dynamic objects. C32_all_equals_partial, C32_all_separate, C32_all_independent_partial: the same for CopyAll of any list of objects none of which is in the tree of another; references with an opposite may then go from the tree of one object to that of another. Violations proved with witnesses: C32_all_violated (CopyAll of an object and an object it contains: the copies in the tree lose their references), C32_shared_violated (dynamic objects share their many valued attribute lists with the copy), C32_container_violated and C32_immutable_violated (children of dynamic copies have no container and their list cannot be changed), C32_root_violated (a contained object with container reference is not Equal to its copy), C32_inherited_violated (inherited references are not copied), C32_outside_violated (references with an opposite that leave the tree are dropped). Not modelled: proxy resolution, maps, notifications."
  },
  {
   "property": "C33",
   "status": "partial",
   "theorems": [
    "Verif.DeepEqual.C33_equals_partial",
    "Verif.DeepEqual.C33_equals_all_partial",
    "Verif.DeepEqual.C33_equals_all_ends",
    "Verif.DeepEqual.C33_reflexive_partial",
    "Verif.DeepEqual.C33_symmetric_partial",
    "Verif.DeepEqual.C33_transitive_partial",
    "Verif.DeepEqual.C33_differences_partial",
    "Verif.DeepEqual.C33_deep_partial",
    "Verif.DeepEqual.C33_transitive_violated",
    "Verif.DeepEqual.C33_inherited_violated"
   ],
   "note": "Equals ends on every finite graph and is true exactly if a one-to-one pairing with the same contents exists (C33_equals_partial, EqualsAll C33_equals_all_partial); reflexive, symmetric; transitive for objects reaching no common object; direct and deep differences in features declared by the class are seen. Violated: transitivity in general (C33_transitive_violated), inherited features (C33_inherited_violated)"
  },
  {
   "property": "C34",
   "status": "proved",
   "theorems": [
    "Verif.EClass.C34_feature_ids",
    "Verif.EClass.C34_operation_ids"
   ],
   "note": "Features and operations, for all histories of reads and modifications of any class in hierarchies without cycles (multiple and repeated inheritance included), each feature being in one class at most and super types being resolved."
  },
  {
   "property": "C35",
   "status": "partial",
   "theorems": [
    "Verif.EClass.C35_lists_partial",
    "Verif.EClass.C35_cross_references_violated",
    "Verif.EClass.C35_containment_changed_violated",
    "Verif.EClass.C35_proxy_super_type_violated"
   ],
   "note": "Proved for all the lists except cross references, after any history with resolved super types and unchanged kinds of features. Violated: cross references are never invalidated; containments stay stale when a reference changes its kind; an unresolved proxy among the super types makes the read hang."
  },
  {
   "property": "C36",
   "status": "proved",
   "theorems": [
    "Verif.EClass.C36_isSuperTypeOf"
   ],
   "note": "For all histories in hierarchies without cycles whose super types are resolved."
  },
  {
   "property": "C37",
   "status": "partial",
   "theorems": [
    "Verif.StoreList.C37_sequence_partial",
    "Verif.StoreList.C37_cache_partial",
    "Verif.StoreList.C37_size_partial",
    "Verif.StoreList.C37_store_violated",
    "Verif.StoreList.C37_proxy_violated",
    "Verif.StoreList.C37_move_violated"
   ],
   "note": "C37_sequence_partial: without proxies, every sequence of calls on a list with a store, with or without cache and with switches of the cache and of the store among them, gives the results of the sequence of elements. C37_cache_partial: sequences of calls that differ by switches of the cache only have the same results and leave the same elements in the store. C37_size_partial: Size is the number of elements of the store. Missing: proxies, moves past the end, disturbed set iterator. C37_store_violated: a list given another store keeps its size and cached elements. C37_proxy_violated: with proxies results depend on the cache. C37_move_violated: a move past the end changes the cache only."
  },
  {
   "property": "C38",
   "status": "partial",
   "theorems": [
    "Verif.SQLList.C38_exact_partial",
    "Verif.SQLList.C38_rounded_partial",
    "Verif.SQLList.C38_middle_violated",
    "Verif.SQLList.C38_head_violated",
    "Verif.SQLList.C38_precision_violated"
   ],
   "note": "With exact numbers every history of valid operations, bulk insertions of several values before existing ones excepted, has the results and the order of the same history on sequences; with any rounding the same as long as the computed numbers fit between their neighbours. The code violates the rest: bulk insertions before existing values and 53 insertions at the same place."
  },
  {
   "property": "C39",
   "status": "partial",
   "theorems": [
    "Verif.SQLScheduler.C39_write_first_partial",
    "Verif.SQLScheduler.C39_next_partial",
    "Verif.SQLScheduler.C39_reads_violated",
    "Verif.SQLScheduler.C39_whole_violated",
    "Verif.SQLScheduler.C39_timeout_violated"
   ],
   "note": "In every execution without cancellation by the time limit, a write is executed completely before every later call that touches the same object feature, the whole object or the store; the same for a read and a later write with no call in between. Violated: a write overtakes the first of two pending reads; a call for a feature overtakes a pending call for its whole object; the time limit breaks the order."
  },
  {
   "property": "C40",
   "status": "partial",
   "theorems": [
    "Verif.SQLPending.C40_get_partial",
    "Verif.SQLPending.C40_isSet_partial",
    "Verif.SQLPending.C40_reference_violated",
    "Verif.SQLPending.C40_root_violated",
    "Verif.SQLPending.C40_container_violated",
    "Verif.SQLPending.C40_default_violated",
    "Verif.SQLPending.C40_unset_violated"
   ],
   "note": "Get returns the last stored value whether pending or executed, for every schedule, when objects are not also values of other writes and no SetContainer/AddRoot is involved; IsSet likewise when values are not the default. Violated: Get of an object that is the value (or container) of another pending write returns that object itself; nil while AddRoot is pending; IsSet of a pending default value; IsSet of an int feature after UnSet."
  },
  {
   "property": "C41",
   "status": "partial",
   "theorems": [
    "Verif.SQLScheduler.C41_wait",
    "Verif.SQLScheduler.C41_executed_partial",
    "Verif.SQLScheduler.C41_blocked_violated",
    "Verif.SQLScheduler.C41_refused_violated",
    "Verif.SQLScheduler.C41_panic_violated"
   ],
   "note": "WaitOperations returns whatever fails: the goroutines make at most two steps per call and then it returns. Operations are all executed if nothing that touches something in common is pending when one fails. Violated, for every execution: once a write was given up because of a failed one, no later call for that feature is ever executed; the same after a panic."
  },
  {
   "property": "C42",
   "status": "partial",
   "theorems": [
    "Verif.XMLPrefix.C42_unique_partial",
    "Verif.XMLPrefix.C42_saving_terminates_partial",
    "Verif.XMLPrefix.C42_saving_violated",
    "Verif.XMLPrefix.C42_recorded_partial",
    "Verif.XMLPrefix.C42_loading_terminates_partial",
    "Verif.XMLPrefix.C42_loading_violated"
   ],
   "note": "Proved: a prefix is bound to one namespace only, recorded declarations are distinct and kept, and both terminate with at most two claims on a prefix. Violated: a third package with the same prefix, or a third declaration of the same prefix, makes saving or loading loop forever."
  },
  {
   "property": "C43",
   "status": "partial",
   "theorems": [
    "Verif.XMLElements.C43_no_panic",
    "Verif.XMLElements.C43_known_partial",
    "Verif.XMLElements.C43_last_partial",
    "Verif.XMLElements.C43_no_error_partial",
    "Verif.XMLElements.C43_sibling_violated",
    "Verif.XMLElements.C43_lost_violated",
    "Verif.XMLElements.C43_inside_violated",
    "Verif.XMLElements.C43_abstract_violated",
    "Verif.XMLElements.C43_root_violated"
   ],
   "note": "Proved: the stacks never panic; with known elements only, each sets its feature of the enclosing object; an unknown element after everything else only causes an error; loading without error means the document was read as meant. Violated: siblings after an unknown element go to the wrong object or are lost; content of unknown elements is given to the enclosing object; a reference to an abstract class is lost without error."
  },
  {
   "property": "C44",
   "status": "partial",
   "theorems": [
    "Verif.Convert.C44_ecore_partial",
    "Verif.Convert.C44_dynamic_partial",
    "Verif.Convert.C44_enum",
    "Verif.Convert.C44_date_partial",
    "Verif.Convert.C44_zone_violated",
    "Verif.Convert.C44_precision_violated",
    "Verif.Convert.C44_bytes_violated"
   ],
   "note": "All data types of Ecore and the named types of dynamic packages, all values; enums in full. That ParseFloat reads what FormatFloat writes is a hypothesis. Violations: dates not in UTC or with a fraction of a millisecond are read as another instant (the layout ends with the letter Z and three digits); byte arrays, bytes and dates of dynamic packages are not converted."
  },
  {
   "property": "C45",
   "status": "partial",
   "theorems": [
    "Verif.Props.C45_fifo",
    "Verif.Props.C45_complete",
    "Verif.Props.C45_never_blocks",
    "Verif.Props.C45_drains",
    "Verif.Props.C45_concurrent_close_violated",
    "Verif.Props.C45_sequential_close"
   ],
   "note": "FIFO, completeness and progress proved for all interleavings; Close concurrent with a send panics (violated theorem), proved safe when the close comes after the sends."
  },
  {
   "property": "C46",
   "status": "partial",
   "theorems": [
    "Verif.Props.C46_targets_partial",
    "Verif.Props.C46_removals",
    "Verif.Props.C46_delivery",
    "Verif.Props.C46_clear_violated",
    "Verif.Props.C46_set_violated",
    "Verif.Props.C46_twice_violated",
    "Verif.Props.C46_self_removal_violated"
   ],
   "note": "Histories of additions and removals of adapters not already attached; Clear, Set, double attachment and removal during delivery violate the claim (violated theorems)."
  },
  {
   "property": "C47",
   "status": "partial",
   "theorems": [
    "Verif.URI.C47_result_partial",
    "Verif.URI.C47_shortening_partial",
    "Verif.URI.C47_schemes_partial",
    "Verif.URI.C47_loop_violated",
    "Verif.URI.C47_host_violated"
   ],
   "note": "Result and finality for every map and every iteration order; termination for shortening maps and scheme to scheme maps; refuted in general, and the host of the new prefix is ignored (violated theorems)."
  },
  {
   "property": "C48",
   "status": "partial",
   "theorems": [
    "Verif.EClass.C48_override_partial",
    "Verif.EClass.C48_hang_violated",
    "Verif.EClass.C48_diamond_violated"
   ],
   "note": "Proved for the first call after a modification, for classes with only own or only inherited operations, no operation inherited twice, no duplicate signatures in a class. Violated: with own and inherited operations the call hangs (mutex locked twice); an operation inherited twice overrides itself."
  },
  {
   "property": "C49",
   "status": "partial",
   "theorems": [
    "Verif.Props.C49_callbacks_replay_partial",
    "Verif.Props.C49_callbacks_bag_partial",
    "Verif.Props.C49_addAll_index_violated"
   ],
   "note": "Every history without bulk appends; AddAll reports wrong positions (violated theorem)."
  },
  {
   "property": "C50",
   "status": "partial",
   "theorems": [
    "Verif.URI.C50_authority_partial",
    "Verif.URI.C50_panic_violated",
    "Verif.URI.C50_wrong_violated"
   ],
   "note": "When user and host do not occur earlier in the text; otherwise wrong slice or panic (violated theorems)."
  },
  {
   "property": "C51",
   "status": "partial",
   "theorems": [
    "Verif.EClass.C51_from_name_partial",
    "Verif.EClass.C51_renamed_violated"
   ],
   "note": "Proved for all histories without renaming. Violated: the map is not invalidated by a renaming."
  },
  {
   "property": "C52",
   "status": "partial",
   "theorems": [
    "Verif.ClassLocks.C52_reads_partial",
    "Verif.ClassLocks.C52_modification_violated"
   ],
   "note": "Proved for any number of goroutines which only read. Violated: a read of a sub class and a modification of its super class can deadlock (locks taken upwards and downwards)."
  },
  {
   "property": "C53",
   "status": "partial",
   "theorems": [
    "Verif.XMLPrefix.C53_declared_partial",
    "Verif.XMLPrefix.C53_nil_violated"
   ],
   "note": "Proved for every document in which xsi:nil of a single valued attribute does not stand alone. Violated: saveNil writes xsi:nil without declaring xsi."
  },
  {
   "property": "C54",
   "status": "proved",
   "theorems": [
    "Verif.SQLScheduler.C54_wait"
   ],
   "note": "When WaitOperations returns without error all operations called before that touch the object have begun and ended, in every execution."
  },
  {
   "property": "C55",
   "status": "partial",
   "theorems": [
    "Verif.Graph.C55_set_partial",
    "Verif.Graph.C55_list_partial"
   ],
   "note": "Proved for well typed calls with the same feature IDs in all classes; list calls behave as in C02 whatever the opposites do."
  },
  {
   "property": "C56",
   "status": "partial",
   "theorems": [
    "Verif.Graph.C56_containment_feature_partial",
    "Verif.Graph.C56_opposite_violated"
   ],
   "note": "Proved for containments without opposite; with an opposite the result always is the container reference (violated)."
  },
  {
   "property": "C57",
   "status": "partial",
   "theorems": [
    "Verif.Convert.C57_type_partial",
    "Verif.Convert.C57_range_partial",
    "Verif.Convert.C57_number_partial",
    "Verif.Convert.C57_number_violated",
    "Verif.Convert.C57_empty_violated"
   ],
   "note": "Integers in range, with sign or zeros in front, give this integer; whatever the text is, the value is in the range of its type and dates are dates of the calendar. Violations: malformed or out of range text is not reported but gives 0, false, the nearest number or the first day of year 1; an empty text gives a string for a byte."
  },
  {
   "property": "C58",
   "status": "partial",
   "theorems": [
    "Verif.SQLQueries.C58_writes",
    "Verif.SQLQueries.C58_reads_partial",
    "Verif.SQLQueries.C58_write_after_read_partial",
    "Verif.SQLQueries.C58_progress_partial",
    "Verif.SQLQueries.C58_failed_violated",
    "Verif.SQLQueries.C58_break_violated",
    "Verif.SQLQueries.C58_readers_violated",
    "Verif.SQLQueries.C58_script_violated",
    "Verif.SQLQueries.C58_nested_violated",
    "Verif.SQLQueries.C58_twice_violated"
   ],
   "note": "Writes are executed one after the other in order of the calls; reads wait for all writes of their tables; a write waits for the last read; without nested statements every call returns. Violations: a failed statement stays in the queue, so that no write is executed any more (for example after an iteration over a list of the store is stopped); a write overtakes an earlier read if another read was called in between; a read overtakes the creation of a table with an index; nested reads deadlock with concurrent writes; a script that changes a table twice waits for itself."
  },
  {
   "property": "C59",
   "status": "partial",
   "theorems": [
    "Verif.SQLCodec.C59_roundtrip_partial",
    "Verif.SQLCodec.C59_contents_violated",
    "Verif.SQLCodec.C59_default_violated",
    "Verif.SQLCodec.C59_nan_violated",
    "Verif.SQLCodec.C59_date_violated",
    "Verif.SQLCodec.C59_proxy_violated",
    "Verif.SQLCodec.C59_names_violated",
    "Verif.SQLCodec.C59_idx_violated",
    "Verif.SQLCodec.C59_uri_violated",
    "Verif.SQLCodec.C59_id_violated",
    "Verif.SQLCodec.C59_containers_violated"
   ],
   "note": "C59_roundtrip_partial: every graph with at most one content, values the database keeps, and default values equal to the zero of the type is loaded as it was, whatever the order in which the classes are read. Missing: inverse references and goroutines; the cases of the ten violations."
  },
  {
   "property": "C60",
   "status": "partial",
   "theorems": [
    "Verif.XMLCodec.C60_roundtrip_partial",
    "Verif.XMLCodec.C60_roots_violated",
    "Verif.XMLCodec.C60_markup_violated",
    "Verif.XMLCodec.C60_return_violated",
    "Verif.XMLCodec.C60_nil_violated",
    "Verif.XMLCodec.C60_nils_violated",
    "Verif.XMLCodec.C60_nil_reference_violated",
    "Verif.XMLCodec.C60_empty_violated",
    "Verif.XMLCodec.C60_order_violated",
    "Verif.XMLCodec.C60_href_violated",
    "Verif.XMLCodec.C60_prefix_violated",
    "Verif.XMLCodec.C60_eobject_violated",
    "Verif.XMLCodec.C60_manager_violated",
    "Verif.XMLCodec.C60_ids_violated",
    "Verif.XMLCodec.C60_space_violated",
    "Verif.XMLCodec.C60_reference_violated"
   ],
   "note": "Proved: what the encoder writes is read by the decoder, through a model of the XML parser, as the same document, for every resource that meets the restrictions of Savable (one root, values that can be written, names that are not reserved). Missing, and shown to be violated by the code: several roots, contents with markup or carriage returns, nil values, empty lists that are set, lists that mix references forward and backward without deferred resolution, features and prefixes named href, contents of type EObject, an ID manager whose IDs are not written or that is used along with ID attributes, IDs and URIs with spaces or markup."
  },
  {
   "property": "C61",
   "status": "proved",
   "theorems": [
    "Verif.ResourceSet.C61_member",
    "Verif.ResourceSet.C61_effect"
   ],
   "note": "Membership after any history, and the effect of every call on a list of resources."
  },
  {
   "property": "C62",
   "status": "partial",
   "theorems": [
    "Verif.ResourceSet.C62_answer_partial",
    "Verif.ResourceSet.C62_again_partial",
    "Verif.ResourceSet.C62_once_partial",
    "Verif.ResourceSet.C62_ends_partial",
    "Verif.ResourceSet.C62_renamed_violated",
    "Verif.ResourceSet.C62_removed_violated",
    "Verif.ResourceSet.C62_unnamed_violated",
    "Verif.ResourceSet.C62_package_violated"
   ],
   "note": "The answer, its stability, single reading and termination are proved for histories that use no map of URIs, or do not rename, add or remove resources while using one. Violated: renamed and removed resources are answered from the map; a resource without URI in a set makes GetResource never end; the resource of a package is read from its URI when asked for again."
  },
  {
   "property": "C63",
   "status": "partial",
   "theorems": [
    "Verif.ResourceSet.C63_resolve_partial",
    "Verif.ResourceSet.C63_again_partial",
    "Verif.ResourceSet.C63_ends_partial",
    "Verif.ResourceSet.C63_cycle_violated"
   ],
   "note": "The result is at the end of the chain of proxies, the same one again, and exists if no chain is endless. Violated: proxies that stand for each other are resolved for ever."
  },
  {
   "property": "C64",
   "status": "partial",
   "theorems": [
    "Verif.ResolveList.C64_view_partial",
    "Verif.ResolveList.C64_reads",
    "Verif.ResolveList.C64_add_violated",
    "Verif.ResolveList.C64_addAll_violated",
    "Verif.ResolveList.C64_removeAll_violated",
    "Verif.ResolveList.C64_removed_violated"
   ],
   "note": "Proved: after any calls with objects that are not proxies the list shows what the sequence of the resolved objects is, with the same answers; reading and its notifications without restriction. Not: the objects given back by RemoveAt, Set and Move, and calls that are given proxies (violations proved), moves past the end (C03)."
  },
  {
   "property": "C65",
   "status": "partial",
   "theorems": [
    "Verif.SharedList.C65_lists_partial",
    "Verif.SharedList.C65_array_partial",
    "Verif.SharedList.C65_array_violated",
    "Verif.SharedList.C65_foreign_violated",
    "Verif.SharedList.C65_adopt_violated",
    "Verif.SharedList.C65_insertAll_violated",
    "Verif.SharedList.C65_told_violated"
   ],
   "note": "Proved for all programs that do not use arrays of ToArray for other lists; the array of ToArray for lists that are only extended or cleared. Violations proved: other calls change the array, a list over the array of another list, InsertAll of such an array changes the list it came from, InsertAll of a list in itself notifies the whole result. Not: moves past the end (C03), iterator of the hash set (C01)."
  },
  {
   "property": "C66",
   "status": "partial",
   "theorems": [
    "Verif.StoreObject.C66_values_partial",
    "Verif.StoreObject.C66_cache_partial",
    "Verif.StoreObject.C66_container_partial",
    "Verif.StoreObject.C66_transient_violated",
    "Verif.StoreObject.C66_detach_violated",
    "Verif.StoreObject.C66_switch_violated",
    "Verif.StoreObject.C66_attach_violated",
    "Verif.StoreObject.C66_list_violated",
    "Verif.StoreObject.C66_isSet_violated",
    "Verif.StoreObject.C66_container_violated"
   ],
   "note": "Proved for single values and containers, all sequences of calls, except those for which violations are proved: transient values are lost when the cache is switched or a store is given; with a cache, unread values are lost when the store is taken away and stale ones shown when it is changed; values set before there is a store do not reach it; lists get a new identity; a list that has been read counts as set; an unread container is lost when the store is taken away."
  },
  {
   "property": "C67",
   "status": "partial",
   "theorems": [
    "Verif.MetaLookup.C67_answers_partial",
    "Verif.MetaLookup.C67_literals",
    "Verif.MetaLookup.C67_rename_violated",
    "Verif.MetaLookup.C67_deliver_violated",
    "Verif.MetaLookup.C67_classifierID_violated",
    "Verif.MetaLookup.C67_referenceType_violated",
    "Verif.MetaLookup.C67_typeDefault_violated",
    "Verif.MetaLookup.C67_default_violated",
    "Verif.MetaLookup.C67_leftover_violated"
   ],
   "note": "Proved for all sequences in which nothing is changed that was asked about before; literals of enumerations without condition. Violated after lookups: renamed classifiers keep their old name, classifiers added while delivery is off are not found, classifier IDs and reference types never change, defaults of types and features stay."
  },
  {
   "property": "C68",
   "status": "partial",
   "theorems": [
    "Verif.ExtMeta.C68_answers_partial",
    "Verif.ExtMeta.C68_rename_violated",
    "Verif.ExtMeta.C68_namespace_violated",
    "Verif.ExtMeta.C68_replaced_violated",
    "Verif.ExtMeta.C68_package_violated"
   ],
   "note": "Proved for all sequences in which no name or namespace that was asked about changes and no classifier leaves a package whose types were asked about; classifiers may be added and names may be equal. Violated: names and namespaces are remembered for ever, classifiers taken from a package are still found and their replacement is not, a package asked for both its name and a type panics."
  },
  {
   "property": "C69",
   "status": "partial",
   "theorems": [
    "Verif.JSON.C69_tells_partial",
    "Verif.JSON.C69_readable_partial",
    "Verif.JSON.C69_written_partial",
    "Verif.JSON.C69_roots_violated",
    "Verif.JSON.C69_nils_violated",
    "Verif.JSON.C69_homeless_violated",
    "Verif.JSON.C69_names_violated",
    "Verif.JSON.C69_cycle_violated",
    "Verif.JSON.C69_nil_violated"
   ],
   "note": "Proved for clean objects: documents determine what was saved to any depth (injectivity), no key twice, and the encoder ends when containment has a height. Violations: roots after the first are not written, nil in lists is dropped, references to objects in no resource are all written as the empty string, a feature named eClass gives a key twice, a cycle of references without proxies is written for ever, a reference set to nil panics."
  },
  {
   "property": "C70",
   "status": "partial",
   "theorems": [
    "Verif.Ancestors.C70_remove_partial",
    "Verif.Ancestors.C70_isAncestor_partial",
    "Verif.Ancestors.C70_getAncestor_partial",
    "Verif.Ancestors.C70_opposite_violated",
    "Verif.Ancestors.C70_family_violated",
    "Verif.Ancestors.C70_parent_violated",
    "Verif.Ancestors.C70_cycle_violated",
    "Verif.Ancestors.C70_nil_violated"
   ],
   "note": "Proved: Remove for containment references without opposite, after any well typed calls, with the complete frame; IsAncestor and GetAncestor for containers that come to an end. Violations: Remove panics when the containment has an opposite (EContainmentFeature is the wrong end), or removes the container from its own container when the class has both; cycles of containment make IsAncestor endless; nil is an ancestor of everything."
  },
  {
   "property": "C71",
   "status": "partial",
   "theorems": [
    "Verif.RelPath.C71_relative_partial",
    "Verif.RelPath.C71_uri_partial",
    "Verif.RelPath.C71_self_violated",
    "Verif.RelPath.C71_root_violated",
    "Verif.RelPath.C71_missing_violated"
   ],
   "note": "Proved for all objects properly held (conditions of C26, C27) strictly below the other. Violations: the empty path of an object relative to itself panics, the URI // of a root panics, a path that leads nowhere panics where nil is tested for."
  },
  {
   "property": "C72",
   "status": "partial",
   "theorems": [
    "Verif.GraphNotes.C72_follow_partial",
    "Verif.GraphNotes.C72_join_partial",
    "Verif.GraphNotes.C72_positions_violated",
    "Verif.GraphNotes.C72_inheritance_violated"
   ],
   "note": "C72_follow_partial and C72_join_partial: for single inheritance, ESet and EUnset of single valued references and all list calls. C72_positions_violated: when three or more objects leave a list in one call by their other end, and not in the order of the list, the merged REMOVE_MANY has one position less than objects (ecore/abstractnotification.go:115-119 stops one too early). C72_inheritance_violated: with several super classes notifications of different features are merged."
  },
  {
   "property": "C73",
   "status": "partial",
   "theorems": [
    "Verif.Reflect.C73_set_partial",
    "Verif.Reflect.C73_notify_partial",
    "Verif.Reflect.C73_unset_partial",
    "Verif.Reflect.C73_isset_partial",
    "Verif.Reflect.C73_get_partial",
    "Verif.Reflect.C73_read_partial",
    "Verif.Reflect.C73_resolve",
    "Verif.Reflect.C73_undeclared",
    "Verif.Reflect.C73_unchangeable_violated",
    "Verif.Reflect.C73_self_violated",
    "Verif.Reflect.C73_sequence_partial",
    "Verif.Reflect.C73_default",
    "Verif.Reflect.C73_referenceType_violated",
    "Verif.Reflect.C73_default_violated",
    "Verif.Reflect.C73_removed_violated",
    "Verif.Reflect.C73_isset_violated",
    "Verif.Reflect.C73_notify_violated",
    "Verif.Reflect.C73_panic_violated"
   ],
   "note": "Proved for all kinds, features, states and values: ESet/EGet/EIsSet/EUnset agree with the declarations and leave the other features alone, sequences of writes show the last value, reads are pure, proxies are resolved and kept, notifications carry old and new value. Violated: ESet and EUnset of an unchangeable feature recurse without end; ESet of the list EGet returned empties it; the container of a removed element panics; the reference type and the default value are stale after a change of type; EIsSet of the literal and of computed features; featureID is silent and instanceTypeName announced as another feature; some nil values panic."
  },
  {
   "property": "C74",
   "status": "partial",
   "theorems": [
    "Verif.Props.C74_place_partial",
    "Verif.Props.C74_effect_partial",
    "Verif.Props.C74_owner_partial",
    "Verif.Props.C74_removed_violated",
    "Verif.Props.C74_factory_violated",
    "Verif.Props.C74_either_end",
    "Verif.Props.C74_details_violated",
    "Verif.Props.C74_details_removed_violated"
   ],
   "note": "Places, effects and owners proved for all reachable states. Violated: an entry moved between the details of two annotations stays in both (EBasicInverseRemove ignores details); getters of the owner panic after a removal because the container feature ID is kept; a factory replaced through SetEFactoryInstance panics when asked for its package whereas one replaced through SetEPackage answers nil."
  },
  {
   "property": "C75",
   "status": "partial",
   "theorems": [
    "Verif.Props.C75_answers_partial",
    "Verif.Props.C75_entries_partial",
    "Verif.Props.C75_lookups_partial",
    "Verif.Props.C75_factory_violated",
    "Verif.Props.C75_removeRange_violated",
    "Verif.Props.C75_store_violated",
    "Verif.Props.C75_unique_violated",
    "Verif.Props.C75_toMap_violated"
   ],
   "note": "Proved for all stores, call sequences and switches of the cache when the factory makes entries that can be told to have a cache; with list calls when no two entries get the same key, the feature is unique, ranges are removed only with a cache or without store and a map is given only stores that have its entries. The code violates the claim otherwise: Put of a new key panics with the entries the library's factory makes; RemoveRange without cache panics and keeps the list locked; after SetEStore lookups answer with the old store; a non-unique feature lets an entry be twice in the map; ToMap gives the internal map. Not modelled: that SetEStore of the object does not reach its maps (ecore/estoreeobject_impl.go 67-99), notifications, the cache of the entries themselves."
  },
  {
   "property": "C76",
   "status": "partial",
   "theorems": [
    "Verif.Props.C76_answers_partial",
    "Verif.Props.C76_identity",
    "Verif.Props.C76_unregister_partial",
    "Verif.Props.C76_inherited_violated",
    "Verif.Props.C76_inherited_set_violated",
    "Verif.Props.C76_unregister_violated",
    "Verif.Props.C76_unregister_roots_violated",
    "Verif.Props.C76_unregister_add_violated",
    "Verif.Props.C76_multiple_violated",
    "Verif.Props.C76_static_violated",
    "Verif.Props.C76_child_first_violated",
    "Verif.Props.C76_reference_violated",
    "Verif.Props.C76_contains_violated",
    "Verif.Props.C76_foreign_violated",
    "Verif.Props.C76_default_violated"
   ],
   "note": "Proved for all metamodels with single inheritance, all object graphs and operation sequences: features are declared by the class of the object, references lead to objects in the store, defaults are 0 where a value is missing, contained objects are put into the store by their container. The identity of what is read is proved for all databases and all operations but UnRegister. The code violates the claim otherwise: inherited features are never read or written, and Get answers a Go error as value; GetContainer gives another feature with multiple inheritance or static features; an object stored before its container has none; references to objects not stored are proxies for ever; Contains stores the object asked for; an object with the ID of another database is taken for one of this; never set attributes are set and ignore the default; unregistered plain objects lose their values, unregistered roots are read as other objects and cannot become roots again. Not modelled: object IDs other than SQL IDs, tables of packages and classes, codec versions, locks, the order of the operations (C39, C41), other data types (C40, C57, C59)."
  },
  {
   "property": "C77",
   "status": "partial",
   "theorems": [
    "Verif.EncoderLocks.C77_once",
    "Verif.EncoderLocks.C77_ends",
    "Verif.EncoderLocks.C77_complete",
    "Verif.EncoderLocks.C77_returns_partial",
    "Verif.EncoderLocks.C77_early_violated",
    "Verif.EncoderLocks.C77_maps_violated",
    "Verif.EncoderLocks.C77_readers_violated",
    "Verif.EncoderLocks.C77_cycle_violated"
   ],
   "note": "Rows written once, exclusion, progress, a bound on the number of steps, completeness and release of all locks are proved for every interleaving at the level of locks, questions and rows. Violated: an object already being stored by another goroutine is reported stored before its contents are (C77_early_violated); maps shared by all classes, packages and literals are written under locks that are one for each (C77_maps_violated); goroutines reading one row may get two objects (C77_readers_violated); a class that is its own super type blocks its goroutine (C77_cycle_violated). Missing: failures of queries and the values of the rows."
  },
  {
   "property": "C78",
   "status": "partial",
   "theorems": [
    "Verif.SQLText.C78_names",
    "Verif.SQLText.C78_create_partial",
    "Verif.SQLText.C78_system_partial",
    "Verif.SQLText.C78_different_partial",
    "Verif.SQLText.C78_rows_partial",
    "Verif.SQLText.C78_ask_partial",
    "Verif.SQLText.C78_change_partial",
    "Verif.SQLText.C78_empty_violated",
    "Verif.SQLText.C78_injection_violated",
    "Verif.SQLText.C78_space_violated",
    "Verif.SQLText.C78_case_violated",
    "Verif.SQLText.C78_list_violated",
    "Verif.SQLText.C78_index_violated",
    "Verif.SQLText.C78_column_violated",
    "Verif.SQLText.C78_null_violated"
   ],
   "note": "Holds for names that begin with a letter or _ and go on with letters, digits, _ and $ (C78_names: exactly these, and names with a dot first and no quote, are read as themselves). Other names change the statement: a class name can contain another statement (C78_injection_violated), a name with a space is another column (C78_space_violated), the empty name panics (C78_empty_violated). Tables, indexes and columns are different if class names have no _, differ in more than case and are not idx, and features are not named like the key or idx (C78_different_partial); otherwise they clash (C78_case_violated, C78_list_violated, C78_index_violated, C78_column_violated). NULL is never found in a list (C78_null_violated)."
  },
  {
   "property": "C79",
   "status": "partial",
   "theorems": [
    "Verif.Attach.C79_where_partial",
    "Verif.Attach.C79_ids_partial",
    "Verif.Attach.C79_once_partial",
    "Verif.Attach.C79_told_partial",
    "Verif.Attach.C79_place_partial",
    "Verif.Attach.C79_keeps_partial",
    "Verif.Attach.C79_cross_violated",
    "Verif.Attach.C79_same_violated",
    "Verif.Attach.C79_unload_violated",
    "Verif.Attach.C79_reload_violated",
    "Verif.Attach.C79_late_violated",
    "Verif.Attach.C79_flag_violated",
    "Verif.Attach.C79_replaced_violated",
    "Verif.Attach.C79_cycle_violated"
   ],
   "note": "Proved for all programs of calls that put no object inside itself, put no object both in a resolving reference and in the contents of a resource, do not unload, and do not put an object by its container in the place of an object it is in; the same ID kept for all programs without Unload. The code violates the rest: objects with two places get two IDs or none, Unload leaves EResource, managers set late have no IDs, a non-resolving reference with a resolving opposite leaves the object in the contents, an object is attached twice when it replaces its own container, cycles do not end."
  },
  {
   "property": "C80",
   "status": "partial",
   "theorems": [
    "Verif.XMLRefs.C80_restored_partial",
    "Verif.XMLRefs.C80_order_partial",
    "Verif.XMLRefs.C80_order_kept_partial",
    "Verif.XMLRefs.C80_symmetric",
    "Verif.XMLRefs.C80_order_violated",
    "Verif.XMLRefs.C80_order_opposite_violated",
    "Verif.XMLRefs.C80_self_violated",
    "Verif.XMLRefs.C80_self_ids_violated",
    "Verif.XMLRefs.C80_self_lost_violated",
    "Verif.XMLRefs.C80_deferred_violated",
    "Verif.XMLRefs.C80_one_end_violated",
    "Verif.XMLRefs.C80_dangling_violated",
    "Verif.XMLRefs.C80_proxy_violated",
    "Verif.XMLRefs.C80_proxy_panic_violated"
   ],
   "note": "Proved for all well formed metamodels, consistent graphs without self references and documents of all their objects, with and without IDs: loading gives no error, and containment lists, single valued references and lists whose opposite is a saved list are restored exactly, in order; other lists are restored up to the order, which is given exactly (values that come before the object in the document first). For all typed documents, also inconsistent ones and those with proxies of the same document: unless loading panics, opposites are symmetric and containment holds. Violated: order of lists with a single valued, unsaved or no opposite; self references (Move with swapped arguments, lost single references, order with IDs); deferred resolution panics for opposite lists; a many valued reference given at one end only panics; dangling single references not reported; same document proxies are kept beside the object (Remove with a number) or panic (nil value)."
  },
  {
   "property": "C81",
   "status": "partial",
   "theorems": [
    "Verif.BinaryErrors.C81_truncated_partial",
    "Verif.BinaryErrors.C81_wrong_type_partial",
    "Verif.BinaryErrors.C81_written_partial",
    "Verif.BinaryErrors.C81_object_partial",
    "Verif.BinaryErrors.C81_ends",
    "Verif.BinaryErrors.C81_header",
    "Verif.BinaryErrors.C81_contents",
    "Verif.BinaryErrors.C81_trailing_violated",
    "Verif.BinaryErrors.C81_size_violated",
    "Verif.BinaryErrors.C81_huge_violated",
    "Verif.BinaryErrors.C81_reference_violated",
    "Verif.BinaryErrors.C81_changed_violated",
    "Verif.BinaryErrors.C81_number_violated",
    "Verif.BinaryErrors.C81_literal_violated",
    "Verif.BinaryErrors.C81_abstract_violated",
    "Verif.BinaryErrors.C81_shape_violated",
    "Verif.BinaryErrors.C81_name_violated"
   ],
   "note": "Proved: any document that loads without an error gives exactly one error and no contents when cut before the point where it ends, or when an item is replaced by one of a type that msgpack does not convert; a document of the encoder has to be there up to its last item; every stream is read to an end with a number of calls bounded by its length; another signature or version is an error; documents that are accepted are read as in C22. Violated: data after the document, and changed values, names or numbers that fit, are not noticed; negative or huge sizes, negative object numbers, numbers of packages, classes and features out of range, abstract classes, literals that an enum does not have, and the name of a list for a single feature are panics. Not modelled: conversions of msgpack between types, cuts within an item (which are the same as cuts before it), proxies resolved while decoding."
  },
  {
   "property": "C82",
   "status": "partial",
   "theorems": [
    "Verif.SQLClose.C82_close_partial",
    "Verif.SQLClose.C82_returns",
    "Verif.SQLClose.C82_once",
    "Verif.SQLClose.C82_serialize",
    "Verif.SQLClose.C82_serialize_complete",
    "Verif.SQLClose.C82_gives_up_violated",
    "Verif.SQLClose.C82_lost_violated",
    "Verif.SQLClose.C82_failure_violated",
    "Verif.SQLClose.C82_panic_violated",
    "Verif.SQLClose.C82_window_violated",
    "Verif.SQLClose.C82_second_violated",
    "Verif.SQLClose.C82_closed_violated",
    "Verif.SQLClose.C82_later_violated",
    "Verif.SQLClose.C82_timeout_violated"
   ],
   "note": "Without failing operations Close waits for everything called before it, and Serialize comes after all earlier writes. Violated when an operation fails or has panicked (Close gives up and the others are lost), for operations called while Close runs, for a second Close, for calls after Close (panic, still registered), for later writes overtaking Serialize and after the time limit."
  },
  {
   "property": "C83",
   "status": "partial",
   "theorems": [
    "Verif.Save.C83_saved_partial",
    "Verif.Save.C83_save_frame",
    "Verif.Save.C83_load_frame",
    "Verif.Save.C83_kept",
    "Verif.Save.C83_errors_partial",
    "Verif.Save.C83_no_writer",
    "Verif.Save.C83_no_reader",
    "Verif.Save.C83_codec_violated",
    "Verif.Save.C83_failed_violated",
    "Verif.Save.C83_temporary_violated",
    "Verif.Save.C83_memory_violated",
    "Verif.Save.C83_stale_violated",
    "Verif.Save.C83_json_violated",
    "Verif.Save.C83_json_load_violated",
    "Verif.Save.C83_roots_violated",
    "Verif.Save.C83_destroyed_violated",
    "Verif.Save.C83_close_violated",
    "Verif.Save.C83_again_violated"
   ],
   "note": "Proved: a Save without error can be loaded with the same contents, for all later calls (files, XML/binary/SQL, one root or binary, Close succeeds); Save and Load change nothing else; errors are those of the call; without writer or reader nothing is changed. Violated: any other failing Save destroys the former document (os.Create first), missing codecs included; an emptied XML document loads without error; memory URIs and missing URIs neither save nor report, old errors stay; JSON never reports errors and panics when loaded; roots after the first are dropped in silence; the error of Close is ignored; a failed temporary file panics; a damaged document is not read again."
  },
  {
   "property": "C84",
   "status": "partial",
   "theorems": [
    "Verif.NetURL.C84_built_partial",
    "Verif.NetURL.C84_parsed_partial",
    "Verif.NetURL.C84_derived_partial",
    "Verif.NetURL.C84_clean_iff",
    "Verif.NetURL.C84_builder",
    "Verif.NetURL.C84_file_partial",
    "Verif.NetURL.C84_memory_partial",
    "Verif.NetURL.C84_escape_violated",
    "Verif.NetURL.C84_slashes_violated",
    "Verif.NetURL.C84_file_violated",
    "Verif.NetURL.C84_relativize_violated",
    "Verif.NetURL.C84_resolve_violated",
    "Verif.NetURL.C84_case_violated",
    "Verif.NetURL.C84_bracket_violated"
   ],
   "note": "Proved for URIs derived from texts without % and from clean tuples (exactly those tuples without % which are read back, C84_clean_iff). Violated for escapes (decoded when parsed, not written again), for // behind an empty authority, for file names with ?, #, %, a colon, and by Relativize."
  },
  {
   "property": "C85",
   "status": "partial",
   "theorems": [
    "Verif.Props.C85_kept_partial",
    "Verif.Props.C85_document_partial",
    "Verif.Props.C85_version",
    "Verif.Props.C85_lost_violated",
    "Verif.Props.C85_container_violated",
    "Verif.Props.C85_name_violated",
    "Verif.Props.C85_manager_violated",
    "Verif.Props.C85_null_violated",
    "Verif.Props.C85_nil_violated",
    "Verif.Props.C85_int_violated",
    "Verif.Props.C85_zero_violated",
    "Verif.Props.C85_unreadable_violated",
    "Verif.Props.C85_twice_violated"
   ],
   "note": "Proved for databases made by a store or by an encoder with CONTAINER_ID, then extended by any number of stores and read by a store (C85_kept_partial), for documents written without CONTAINER_ID and read by the decoder (C85_document_partial), and the refusal of other versions above 0 (C85_version). Violated: the decoder reads the ID at a fixed position and loses all IDs when there are container columns; a store on a database without container columns (or without the ID column it is asked for) marks it as having them and then fails; OBJECT_ID without ID manager names a column that is never made; rows added without manager are unreadable with one; objects without ID are written as <nil>; a version given as int; versions of 0 or below; unreadable properties panic; a second encoding to the same database fails."
  },
  {
   "property": "C86",
   "status": "partial",
   "theorems": [
    "Verif.Props.C86_first_partial",
    "Verif.Props.C86_once_partial",
    "Verif.Props.C86_order_violated",
    "Verif.Props.C86_value_violated",
    "Verif.Props.C86_transfer_violated",
    "Verif.Props.C86_panic_violated",
    "Verif.Props.C86_attached_violated",
    "Verif.Props.C86_endless_violated"
   ],
   "note": "Proved for any reactions: an observer behind passive ones is told all changes in order and its copy is right whenever it is told something and whenever all calls returned; every observer is told each change exactly once if nothing panics and never more often. The code violates the rest, witnesses: an observer behind a reacting one is told the reaction before its cause (order, value), also when a child is moved between notifiers (transfer); a panicking reaction hides the change from the observers behind (panic); an observer attached during a notification is told the earlier change (attached); endless reactions never return (endless)."
  },
  {
   "property": "C87",
   "status": "partial",
   "theorems": [
    "Verif.Props.XMLRoot.C87_root_partial",
    "Verif.Props.XMLRoot.C87_object_partial",
    "Verif.Props.XMLRoot.C87_plain_partial",
    "Verif.Props.XMLRoot.C87_subtype_violated",
    "Verif.Props.XMLRoot.C87_abstract_violated",
    "Verif.Props.XMLRoot.C87_class_violated",
    "Verif.Props.XMLRoot.C87_unqualified_violated",
    "Verif.Props.XMLRoot.C87_exchanged_violated",
    "Verif.Props.XMLRoot.C87_namespaces_violated",
    "Verif.Props.XMLRoot.C87_attribute_violated",
    "Verif.Props.XMLRoot.C87_panic_violated",
    "Verif.Props.XMLRoot.C87_vacant_violated",
    "Verif.Props.XMLRoot.C87_roots_violated"
   ],
   "note": "Proved for metamodels without ambiguous names: a document root with one value (C87_root_partial), an object whose class is the type of a qualified feature of the document root, with and without suppression (C87_object_partial), and packages without document root (C87_plain_partial). The code violates the claim in the other cases: the class of a root element found by a super type is lost (C87_subtype_violated, C87_abstract_violated), a class without root feature or a root feature without namespace is not found (C87_class_violated, C87_unqualified_violated), names are looked up before extended names and namespaces are ignored (C87_exchanged_violated, C87_namespaces_violated), attributes of a document root are written outside of the document and panic when read with suppression (C87_attribute_violated, C87_panic_violated), a document root with no or several values gives a text that is not a document (C87_vacant_violated, C87_roots_violated). References, identifiers and the text level are in C60."
  },
  {
   "property": "C88",
   "status": "partial",
   "theorems": [
    "Verif.Props.C88_members_partial",
    "Verif.Props.C88_order_partial",
    "Verif.Props.C88_goroutines_partial",
    "Verif.Props.C88_ends_partial",
    "Verif.Props.C88_order_violated",
    "Verif.Props.C88_classes_violated",
    "Verif.Props.C88_goroutines_violated",
    "Verif.Props.C88_single_violated"
   ],
   "note": "Proved: loads one after the other in any order give every reference the objects it had, and single values exactly (members); a list that is read before its opposite has its order (order); any interleaving of goroutines is right if one of two opposites is stored, and comes to an end (goroutines, ends). Violated by the code: the order of the list on the side that is read second is lost (order), so the order depends on the order of a Go map (classes); two goroutines that read both sides of a reference put an object two times in a unique list (goroutines, single)."
  },
  {
   "property": "C89",
   "status": "partial",
   "theorems": [
    "Verif.Props.C89_isolated_partial",
    "Verif.Props.C89_writers_violated",
    "Verif.Props.C89_readers_violated",
    "Verif.Props.C89_stores_violated",
    "Verif.Props.C89_store_replaced_violated",
    "Verif.Props.C89_name_violated",
    "Verif.Props.C89_hash_violated",
    "Verif.Props.C89_panic_violated"
   ],
   "note": "Proved for all schedules of any number of users: users with different base names, one at most of which saves in memory, have what they expect, other files are untouched and nothing is left (isolated). Violated by the code: two resources saved in memory at the same time share one database (writers); documents or stores with the same base name share a database in memory, the file of a store may be replaced by another (readers, stores, store_replaced); with # in the name the database in memory is a file of the working directory, which is replaced (name, hash); a document shorter than 20 bytes panics (panic)."
  },
  {
   "property": "C90",
   "status": "partial",
   "theorems": [
    "Verif.DynamicObject.C90_records_partial",
    "Verif.DynamicObject.C90_single_inheritance_partial",
    "Verif.DynamicObject.C90_added_feature_violated",
    "Verif.DynamicObject.C90_reflective_class_violated",
    "Verif.DynamicObject.C90_removed_feature_violated",
    "Verif.DynamicObject.C90_setClass_violated",
    "Verif.DynamicObject.C90_orphan_violated",
    "Verif.DynamicObject.C90_two_super_types_violated",
    "Verif.DynamicObject.C90_reflective_super_types_violated",
    "Verif.DynamicObject.C90_inherited_twice_violated",
    "Verif.DynamicObject.C90_contents_violated",
    "Verif.DynamicObject.C90_read_is_set_violated"
   ],
   "note": "Proved: every history of calls is answered as records answer it, for both sorts of objects, any number of objects and features, with changes of classes not used by objects and SetEClass to a class whose features begin with the same ones; single inheritance hierarchies always suit. The code violates the rest: a feature added to the class of an object panics; removed or reordered features exchange values; SetEClass copies values by position and leaves contained objects with a container that cannot be left; with two super types a containment list records the wrong feature, so that moving an object leaves it in two lists and loses another value; reflective objects confuse features of several super types; a feature inherited twice doubles the contents; EContents keeps the features of the former class; reading a list makes it set."
  },
  {
   "property": "C91",
   "status": "partial",
   "theorems": [
    "Verif.SQLMeta.C91_sessions_partial",
    "Verif.SQLMeta.C91_rows_partial",
    "Verif.SQLMeta.C91_one_session_partial",
    "Verif.SQLMeta.C91_rows_violated",
    "Verif.SQLMeta.C91_unset_violated",
    "Verif.SQLMeta.C91_unset_zero_violated",
    "Verif.SQLMeta.C91_isSet_violated",
    "Verif.SQLMeta.C91_twin_packages_violated",
    "Verif.SQLMeta.C91_twin_literals_violated",
    "Verif.SQLMeta.C91_roots_violated",
    "Verif.SQLMeta.C91_two_databases_violated"
   ],
   "note": "Proved for all metamodels without twins (URIs, names, literal texts) and all histories: any number of sessions, each with its own version of the packages, with new or kept ID manager (C91_sessions_partial); at most one row per package, class and literal and session (C91_rows_partial, C91_one_session_partial). Violated: a second session writes the class and its package again; UnSet of an enumeration attribute writes the default value where a literal number belongs, so Get gives another literal or nil (in general: nil when the default is 0); IsSet is true for an attribute never set; one unknown class makes GetRoots give nothing; packages with one URI, literals with one text; one ID manager with two databases."
  },
  {
   "property": "C92",
   "status": "partial",
   "theorems": [
    "Verif.Immutable.C92_list_partial",
    "Verif.Immutable.C92_map_partial",
    "Verif.Immutable.C92_make_partial",
    "Verif.Immutable.C92_entries_partial",
    "Verif.Immutable.C92_array_violated",
    "Verif.Immutable.C92_slice_violated",
    "Verif.Immutable.C92_prefix_violated",
    "Verif.Immutable.C92_extended_violated",
    "Verif.Immutable.C92_toMap_violated",
    "Verif.Immutable.C92_twice_violated",
    "Verif.Immutable.C92_entry_violated"
   ],
   "note": "proved for programs that write only into slices they have not given away and not into what ToArray and ToMap give (appending to it is allowed); for other programs the code breaks the claim: the list shares the slice, ToArray and ToMap give the inside away; two entries with one key and SetValue of an entry make the elements and GetValue differ"
  },
  {
   "property": "C93",
   "status": "partial",
   "theorems": [
    "Verif.MapEntries.C93_places_partial",
    "Verif.MapEntries.C93_one_place_partial",
    "Verif.MapEntries.C93_container_partial",
    "Verif.MapEntries.C93_both_violated",
    "Verif.MapEntries.C93_orphan_violated",
    "Verif.MapEntries.C93_value_violated"
   ],
   "note": "Proved for all programs that bring only entries that are in no map (free ones and those of lists): every answer is the one of the specification, where entries are in one place; contents and containers agree. For all programs: the container of an entry has it. Violated in general: a map of objects is not an ENotifyingList and EAnnotation does nothing for its details, so an entry added to another map or list stays in the first map; it is in both, removing it from the first leaves it without container in the other, and a Put in the other changes the value in the first."
  },
  {
   "property": "C94",
   "status": "partial",
   "theorems": [
    "Verif.ResolveAll.C94_all_partial",
    "Verif.ResolveAll.C94_ends_partial",
    "Verif.ResolveAll.C94_again_partial",
    "Verif.ResolveAll.C94_resource_partial",
    "Verif.ResolveAll.C94_order_violated",
    "Verif.ResolveAll.C94_unload_violated"
   ],
   "note": "Proved for all documents and all programs without Unload, when the resources of the set are loaded as far as they can be read: the closure under references, all references settled, a second call is the identity; termination for finitely many documents; ResolveAllInResource for one resource. Violated: a resource in the set that is not loaded is passed by, and its references stay proxies when a later resource makes it load; after Unload and Load the references of other resources keep the old objects and are not proxies."
  },
  {
   "property": "C95",
   "status": "partial",
   "theorems": [
    "Verif.CrossContainment.C95_container_partial",
    "Verif.CrossContainment.C95_places_partial",
    "Verif.CrossContainment.C95_read_partial",
    "Verif.CrossContainment.C95_resources_partial",
    "Verif.CrossContainment.C95_both_violated",
    "Verif.CrossContainment.C95_taken_violated",
    "Verif.CrossContainment.C95_twice_violated",
    "Verif.CrossContainment.C95_cycle_violated"
   ],
   "note": "Proved: the container of an object holds it (all programs); what holds it is its container as long as no two entries stand for the same object; reading lists changes nothing shown (all programs), reading single references neither under that condition; resources of objects are independent of containers, and an object is in the contents of its resource only (all programs). The code violates the rest: an object in one list and its proxy in another are both the object after reading, and removing one takes the container away from the other; reading a single reference takes the object out of the list it is in; a list with an object and its proxy has it twice; a proxy of an object inside it makes a cycle and EResource does not end. Not modelled: notifications, attach and detach, bulk calls."
  },
  {
   "property": "C96",
   "status": "partial",
   "theorems": [
    "Verif.Props.C96_invoke_partial",
    "Verif.Props.C96_foreign",
    "Verif.Props.C96_typed",
    "Verif.Props.C96_ecore_types",
    "Verif.Props.C96_ecore_partial",
    "Verif.Props.C96_nil_violated",
    "Verif.Props.C96_eobject_violated",
    "Verif.Props.C96_two_supers_violated",
    "Verif.Props.C96_dynamic_violated",
    "Verif.Props.C96_dynamic_foreign",
    "Verif.Props.C96_number_partial",
    "Verif.Props.C96_added_violated"
   ],
   "note": "Proved for code generated for classes with one super type at most, of any depth, and for all classes and operations of the Ecore model; operations the class does not have always panic. Violated: with two super types two operations have the same number and invoking one does the same as invoking the other; nil for an object panics; the operations of EObject panic on every Ecore element; dynamic objects do nothing; adding an operation to a super type at run time makes another method called."
  },
  {
   "property": "C97",
   "status": "partial",
   "theorems": [
    "Verif.Props.C97_silent",
    "Verif.Props.C97_reads",
    "Verif.Props.C97_view_partial",
    "Verif.Props.C97_together_partial",
    "Verif.Props.C97_add_violated",
    "Verif.Props.C97_store_violated"
   ],
   "note": "Proved for any calls on the view, and for any calls on both if no object is added through the view that stands for one that the list shows (and no move past the end, C03). Violated: with a proxy of an object in the list, the view takes the object, which the list refuses and then shows twice; the view of a list with a store is unique even if its feature is not. The array of ToArray being shared with the list (C65) is not modelled here."
  },
  {
   "property": "C98",
   "status": "partial",
   "theorems": [
    "Verif.ContentProxies.C98_attached_partial",
    "Verif.ContentProxies.C98_followed_partial",
    "Verif.ContentProxies.C98_total_partial",
    "Verif.ContentProxies.C98_resolved_violated",
    "Verif.ContentProxies.C98_embedded_violated",
    "Verif.ContentProxies.C98_removed_violated"
   ],
   "note": "Attaching is exact for both settings, and over every history of containment changes and proxy resolutions (non-embedded adapter, no proxies below what is added or removed; none at attach time unless resolveProxies) the adapter is on exactly the tree. Violated by the code: with the default setting a proxy present when attaching is never followed; an adapter embedded in another never follows; removing the adapter reads (loads) the proxies and stays attached to them."
  },
  {
   "property": "C99",
   "status": "partial",
   "theorems": [
    "Verif.Processor.C99_one_set_partial",
    "Verif.Processor.C99_shared_partial",
    "Verif.Processor.C99_kept",
    "Verif.Processor.C99_saved",
    "Verif.Processor.C99_saved_resource",
    "Verif.Processor.C99_set_violated",
    "Verif.Processor.C99_reference_violated",
    "Verif.Processor.C99_twice_violated"
   ],
   "note": "Proved: with a resource set all resources are in it, and references go to the resource the document was first loaded into or saved with, after any operations; what was loaded stays; what was saved last is loaded, with or without a set. Violated: without a resource set every call of GetResourceSet, Load, LoadWithReader and SaveObject makes a new set, so no reference between two documents ever goes to what was loaded, and GetResourceSet never has them; loading a URI again makes a second resource no reference goes to, which is so for all documents read from readers but the first, as they share the URI *.xml."
  }
 ]
}