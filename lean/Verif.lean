import Verif.Model.Adapters
import Verif.Model.AllContents
import Verif.Model.Ancestors
import Verif.Model.Attach
import Verif.Model.Binary
import Verif.Model.BinaryErrors
import Verif.Model.BinaryList
import Verif.Model.Channel
import Verif.Model.ClassLocks
import Verif.Model.Compact
import Verif.Model.ContentAdapter
import Verif.Model.ContentProxies
import Verif.Model.Convert
import Verif.Model.CrossContainment
import Verif.Model.DeepCopy
import Verif.Model.DeepEqual
import Verif.Model.DynamicEntry
import Verif.Model.DynamicObject
import Verif.Model.EClass
import Verif.Model.EContents
import Verif.Model.EList
import Verif.Model.EMap
import Verif.Model.EncoderLocks
import Verif.Model.ExtMeta
import Verif.Model.Factory
import Verif.Model.Fragment
import Verif.Model.Graph
import Verif.Model.GraphNotes
import Verif.Model.IDForms
import Verif.Model.IDManager
import Verif.Model.IDRefs
import Verif.Model.Immutable
import Verif.Model.Invoke
import Verif.Model.JSON
import Verif.Model.MapEntries
import Verif.Model.MetaBuild
import Verif.Model.MetaContainment
import Verif.Model.MetaLookup
import Verif.Model.NetURL
import Verif.Model.Notify
import Verif.Model.ObjectID
import Verif.Model.Processor
import Verif.Model.ProxyContainer
import Verif.Model.Reentrant
import Verif.Model.Reflect
import Verif.Model.Registry
import Verif.Model.RelPath
import Verif.Model.ResolveAll
import Verif.Model.ResolveList
import Verif.Model.Resource
import Verif.Model.ResourceSet
import Verif.Model.SQLClose
import Verif.Model.SQLCodec
import Verif.Model.SQLErrors
import Verif.Model.SQLList
import Verif.Model.SQLListErrors
import Verif.Model.SQLMemory
import Verif.Model.SQLMeta
import Verif.Model.SQLObjects
import Verif.Model.SQLPending
import Verif.Model.SQLQueries
import Verif.Model.SQLScheduler
import Verif.Model.SQLSettings
import Verif.Model.SQLText
import Verif.Model.SQLTwoWay
import Verif.Model.Save
import Verif.Model.SharedList
import Verif.Model.StoreList
import Verif.Model.StoreMap
import Verif.Model.StoreObject
import Verif.Model.Tree
import Verif.Model.URI
import Verif.Model.UnresolvedView
import Verif.Model.XMLCodec
import Verif.Model.XMLDecl
import Verif.Model.XMLElements
import Verif.Model.XMLLex
import Verif.Model.XMLNamespaces
import Verif.Model.XMLPrefix
import Verif.Model.XMLRefs
import Verif.Model.XMLRoot
import Verif.Model.XMLSingle
import Verif.Model.XMLString
import Verif.Proofs.AllContents
import Verif.Proofs.Ancestors
import Verif.Proofs.Attach
import Verif.Proofs.AttachGrows
import Verif.Proofs.AttachOps
import Verif.Proofs.AttachTree
import Verif.Proofs.Binary
import Verif.Proofs.BinaryErrors
import Verif.Proofs.BinaryErrorsEnd
import Verif.Proofs.BinaryErrorsSame
import Verif.Proofs.BinaryFeatures
import Verif.Proofs.BinaryList
import Verif.Proofs.BinaryObjects
import Verif.Proofs.BinaryScope
import Verif.Proofs.BinaryTotal
import Verif.Proofs.Callbacks
import Verif.Proofs.ClassLocks
import Verif.Proofs.Compact
import Verif.Proofs.ContentAdapter
import Verif.Proofs.ContentProxies
import Verif.Proofs.Convert
import Verif.Proofs.CrossContainment
import Verif.Proofs.DeepCopy
import Verif.Proofs.DeepCopyAll
import Verif.Proofs.DeepCopyEqual
import Verif.Proofs.DeepCopyPass
import Verif.Proofs.DeepCopyRefs
import Verif.Proofs.DeepEqual
import Verif.Proofs.DynamicEntry
import Verif.Proofs.DynamicObject
import Verif.Proofs.EClass
import Verif.Proofs.EClassIds
import Verif.Proofs.EClassInv
import Verif.Proofs.EClassOverride
import Verif.Proofs.EClassRun
import Verif.Proofs.EClassStep
import Verif.Proofs.EList
import Verif.Proofs.EMap
import Verif.Proofs.EncoderLocks
import Verif.Proofs.EncoderLocksRun
import Verif.Proofs.ExtMeta
import Verif.Proofs.Factory
import Verif.Proofs.Fragment
import Verif.Proofs.Graph
import Verif.Proofs.GraphNotes
import Verif.Proofs.IDForms
import Verif.Proofs.IDRefs
import Verif.Proofs.Immutable
import Verif.Proofs.Invoke
import Verif.Proofs.JSON
import Verif.Proofs.MapEntries
import Verif.Proofs.MetaBuild
import Verif.Proofs.MetaContainment
import Verif.Proofs.MetaContainmentOps
import Verif.Proofs.MetaContainmentOwner
import Verif.Proofs.MetaContainmentStep
import Verif.Proofs.MetaLookup
import Verif.Proofs.NetURL
import Verif.Proofs.NetURLNormal
import Verif.Proofs.Notify
import Verif.Proofs.ObjectID
import Verif.Proofs.Processor
import Verif.Proofs.ProxyContainer
import Verif.Proofs.Reentrant
import Verif.Proofs.Reflect
import Verif.Proofs.ReflectRead
import Verif.Proofs.ReflectSet
import Verif.Proofs.ReflectUnset
import Verif.Proofs.RelPath
import Verif.Proofs.ResolveAll
import Verif.Proofs.ResolveList
import Verif.Proofs.ResourceSet
import Verif.Proofs.ResourceSetGet
import Verif.Proofs.ResourceSetProxy
import Verif.Proofs.SQLClose
import Verif.Proofs.SQLCodec
import Verif.Proofs.SQLCodecDecode
import Verif.Proofs.SQLCodecEncode
import Verif.Proofs.SQLCodecLoad
import Verif.Proofs.SQLCodecObject
import Verif.Proofs.SQLCodecRun
import Verif.Proofs.SQLErrors
import Verif.Proofs.SQLList
import Verif.Proofs.SQLListErrors
import Verif.Proofs.SQLMemory
import Verif.Proofs.SQLMeta
import Verif.Proofs.SQLObjects
import Verif.Proofs.SQLObjectsIdentity
import Verif.Proofs.SQLObjectsSteps
import Verif.Proofs.SQLPending
import Verif.Proofs.SQLQueries
import Verif.Proofs.SQLScheduler
import Verif.Proofs.SQLSettings
import Verif.Proofs.SQLText
import Verif.Proofs.SQLTextNames
import Verif.Proofs.SQLTextQueries
import Verif.Proofs.SQLTextRows
import Verif.Proofs.SQLTextSchema
import Verif.Proofs.SQLTextTables
import Verif.Proofs.SQLTwoWay
import Verif.Proofs.Save
import Verif.Proofs.SharedList
import Verif.Proofs.StoreList
import Verif.Proofs.StoreMap
import Verif.Proofs.StoreMapEvents
import Verif.Proofs.StoreObject
import Verif.Proofs.URI
import Verif.Proofs.URIDecode
import Verif.Proofs.URIIdem
import Verif.Proofs.URINormal
import Verif.Proofs.URIResolve
import Verif.Proofs.UnresolvedView
import Verif.Proofs.XMLCodecAttributes
import Verif.Proofs.XMLCodecDocument
import Verif.Proofs.XMLCodecFeatures
import Verif.Proofs.XMLCodecForest
import Verif.Proofs.XMLCodecFragment
import Verif.Proofs.XMLCodecLoad
import Verif.Proofs.XMLCodecLog
import Verif.Proofs.XMLCodecRoundtrip
import Verif.Proofs.XMLCodecRun
import Verif.Proofs.XMLCodecSave
import Verif.Proofs.XMLCodecState
import Verif.Proofs.XMLCodecText
import Verif.Proofs.XMLCodecTop
import Verif.Proofs.XMLDecl
import Verif.Proofs.XMLLex
import Verif.Proofs.XMLRefs
import Verif.Proofs.XMLRefsDoc
import Verif.Proofs.XMLRefsEnd
import Verif.Proofs.XMLRefsLink
import Verif.Proofs.XMLRefsLoad
import Verif.Proofs.XMLRefsSymm
import Verif.Proofs.XMLRoot
import Verif.Proofs.XMLSingle
import Verif.Proofs.XMLString
import Verif.Props.Adapters
import Verif.Props.AllContents
import Verif.Props.Ancestors
import Verif.Props.Attach
import Verif.Props.Binary
import Verif.Props.BinaryErrors
import Verif.Props.BinaryList
import Verif.Props.C100_ObjectID
import Verif.Props.C101_IDRefs
import Verif.Props.C102_BinaryScope
import Verif.Props.C103_XMLSingle
import Verif.Props.C104_DynamicEntry
import Verif.Props.C105_SQLErrors
import Verif.Props.C106_XMLDecl
import Verif.Props.C107_ProxyContainer
import Verif.Props.C108_SQLListErrors
import Verif.Props.C109_MetaBuild
import Verif.Props.C110_IDForms
import Verif.Props.C111_Factory
import Verif.Props.C93_MapEntries
import Verif.Props.C94_ResolveAll
import Verif.Props.C95_CrossContainment
import Verif.Props.C96_Invoke
import Verif.Props.C97_UnresolvedView
import Verif.Props.C98_ContentProxies
import Verif.Props.C99_Processor
import Verif.Props.Callbacks
import Verif.Props.Channel
import Verif.Props.ClassLocks
import Verif.Props.Compact
import Verif.Props.ContentAdapter
import Verif.Props.Convert
import Verif.Props.DeepCopy
import Verif.Props.DeepEqual
import Verif.Props.DynamicObject
import Verif.Props.EClass
import Verif.Props.EContents
import Verif.Props.EList
import Verif.Props.EMap
import Verif.Props.EncoderLocks
import Verif.Props.ExtMeta
import Verif.Props.Fragment
import Verif.Props.Graph
import Verif.Props.GraphNotes
import Verif.Props.IDManager
import Verif.Props.Immutable
import Verif.Props.JSON
import Verif.Props.MetaContainment
import Verif.Props.MetaLookup
import Verif.Props.NetURL
import Verif.Props.Notify
import Verif.Props.Reentrant
import Verif.Props.Reflect
import Verif.Props.Registry
import Verif.Props.RelPath
import Verif.Props.ResolveList
import Verif.Props.Resource
import Verif.Props.ResourceSet
import Verif.Props.SQLClose
import Verif.Props.SQLCodec
import Verif.Props.SQLList
import Verif.Props.SQLMemory
import Verif.Props.SQLMeta
import Verif.Props.SQLObjects
import Verif.Props.SQLPending
import Verif.Props.SQLQueries
import Verif.Props.SQLScheduler
import Verif.Props.SQLSettings
import Verif.Props.SQLText
import Verif.Props.SQLTwoWay
import Verif.Props.Save
import Verif.Props.SharedList
import Verif.Props.StoreList
import Verif.Props.StoreMap
import Verif.Props.StoreObject
import Verif.Props.Tree
import Verif.Props.URI
import Verif.Props.XMLCodec
import Verif.Props.XMLElements
import Verif.Props.XMLNamespaces
import Verif.Props.XMLPrefix
import Verif.Props.XMLRefs
import Verif.Props.XMLRoot
import Verif.Props.XMLString
import Verif.Spec.AllContents
import Verif.Spec.Ancestors
import Verif.Spec.Attach
import Verif.Spec.Binary
import Verif.Spec.BinaryErrors
import Verif.Spec.BinaryScope
import Verif.Spec.Callbacks
import Verif.Spec.Compact
import Verif.Spec.ContentAdapter
import Verif.Spec.ContentProxies
import Verif.Spec.Convert
import Verif.Spec.CrossContainment
import Verif.Spec.DeepCopy
import Verif.Spec.DeepEqual
import Verif.Spec.DynamicEntry
import Verif.Spec.DynamicObject
import Verif.Spec.EClass
import Verif.Spec.EncoderLocks
import Verif.Spec.ExtMeta
import Verif.Spec.FMap
import Verif.Spec.Fragment
import Verif.Spec.Graph
import Verif.Spec.GraphNotes
import Verif.Spec.IDForms
import Verif.Spec.IDRefs
import Verif.Spec.Immutable
import Verif.Spec.Invoke
import Verif.Spec.JSON
import Verif.Spec.MapEntries
import Verif.Spec.MetaBuild
import Verif.Spec.MetaContainment
import Verif.Spec.MetaLookup
import Verif.Spec.NetURL
import Verif.Spec.Notify
import Verif.Spec.ObjectID
import Verif.Spec.Processor
import Verif.Spec.ProxyContainer
import Verif.Spec.Reentrant
import Verif.Spec.Reflect
import Verif.Spec.RelPath
import Verif.Spec.ResolveAll
import Verif.Spec.ResolveList
import Verif.Spec.ResourceSet
import Verif.Spec.SQLClose
import Verif.Spec.SQLCodec
import Verif.Spec.SQLErrors
import Verif.Spec.SQLList
import Verif.Spec.SQLListErrors
import Verif.Spec.SQLMemory
import Verif.Spec.SQLMeta
import Verif.Spec.SQLObjects
import Verif.Spec.SQLPending
import Verif.Spec.SQLQueries
import Verif.Spec.SQLScheduler
import Verif.Spec.SQLSettings
import Verif.Spec.SQLText
import Verif.Spec.SQLTwoWay
import Verif.Spec.Seq
import Verif.Spec.SharedList
import Verif.Spec.StoreList
import Verif.Spec.StoreMap
import Verif.Spec.StoreObject
import Verif.Spec.Tree
import Verif.Spec.URI
import Verif.Spec.URIComps
import Verif.Spec.UnresolvedView
import Verif.Spec.XMLCodec
import Verif.Spec.XMLDecl
import Verif.Spec.XMLElements
import Verif.Spec.XMLLex
import Verif.Spec.XMLRefs
import Verif.Spec.XMLRoot
import Verif.Spec.XMLSingle
import Verif.Spec.XMLString
