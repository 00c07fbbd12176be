import Verif.Props.Sort
import Verif.Props.Decimal
import Verif.Props.Escape
import Verif.Props.Bitfield
import Verif.Props.Rarray
import Verif.Props.Collection
import Verif.Props.Tree
import Verif.Props.Enum
import Verif.Props.Xdr
import Verif.Props.Ptrs
import Verif.Props.Dfs
import Verif.Props.Reorder
import Verif.Props.Value
import Verif.Props.Lloc
import Verif.Props.Types
import Verif.Props.TypeName
import Verif.Props.AnonUnion
import Verif.Props.XmlDoc
import Verif.Props.Init
import Verif.Props.Arrays
import Verif.Props.Save
import Verif.Props.SaveFinal
import Verif.Props.Free
import Verif.Props.Copy
import Verif.Props.Cmp
import Verif.Props.CmpValue
import Verif.Lemmas.SimTwin
import Verif.Lemmas.SimObj
import Verif.Lemmas.SimResolve
import Verif.Lemmas.SimInner
import Verif.Lemmas.SimGraph
import Verif.Lemmas.SimPost
import Verif.Spec.CmpCopy
import Verif.Lemmas.CmpSame
import Verif.Lemmas.CmpCopy
import Verif.Props.CmpCopy
import Verif.Model.Flex
import Verif.Model.Json
import Verif.Spec.Number
import Verif.Spec.Json
import Verif.Lemmas.Flex
import Verif.Lemmas.JsonLex
import Verif.Lemmas.TopDown
import Verif.Lemmas.JsonLoad
import Verif.Lemmas.JsonPrint
import Verif.Props.Json
import Verif.Model.XdrGraph
import Verif.Spec.XdrGraph
import Verif.Lemmas.XdrMem
import Verif.Lemmas.XdrSeg
import Verif.Lemmas.XdrStep
import Verif.Lemmas.XdrPlan
import Verif.Lemmas.XdrFit
import Verif.Lemmas.XdrNode
import Verif.Lemmas.XdrCell
import Verif.Lemmas.XdrForest
import Verif.Lemmas.XdrLink
import Verif.Props.XdrGraph
import Verif.Lemmas.XdrSafe
import Verif.Props.XdrSafe
import Verif.Model.Load
import Verif.Model.LoadJson
import Verif.Spec.Load
import Verif.Lemmas.LoadSafe
import Verif.Lemmas.LoadInv
import Verif.Lemmas.LoadStep
import Verif.Lemmas.LoadRow
import Verif.Lemmas.LoadOpen
import Verif.Lemmas.LoadEnd
import Verif.Lemmas.LoadJson
import Verif.Spec.LoadSays
import Verif.Lemmas.LoadSays
import Verif.Lemmas.LoadTold
import Verif.Lemmas.LoadTree
import Verif.Lemmas.LoadPtr
import Verif.Lemmas.LoadRef
import Verif.Lemmas.LoadFinal
import Verif.Lemmas.LoadedOf
import Verif.Lemmas.DocWalk
import Verif.Lemmas.JsonPruned
import Verif.Lemmas.JsonValue
import Verif.Lemmas.JsonNode
import Verif.Lemmas.JsonGraph
import Verif.Lemmas.JsonTells
import Verif.Lemmas.LoadGraph
import Verif.Props.Load
import Verif.Props.LoadSays
import Verif.Props.SaveJson
import Verif.Model.SaveJson
import Verif.Spec.SaveJson
import Verif.Spec.LoadFits
import Verif.Lemmas.LoadFits
import Verif.Lemmas.GraphFits
import Verif.Props.LoadFits
import Verif.Lemmas.JsonFits
import Verif.Model.Xml1
import Verif.Spec.Xml1
import Verif.Lemmas.Xml1Lex
import Verif.Lemmas.Xml1Load
import Verif.Lemmas.Xml1Print
import Verif.Props.Xml1
import Verif.Model.Cinit
import Verif.Spec.Cinit
import Verif.Lemmas.CinitLex
import Verif.Lemmas.CinitLoad
import Verif.Lemmas.CinitTok
import Verif.Lemmas.CinitLeaf
import Verif.Lemmas.CinitPrint
import Verif.Props.Cinit
import Verif.Model.Scm
import Verif.Spec.Scm
import Verif.Lemmas.ScmLoad
import Verif.Lemmas.ScmLex
import Verif.Lemmas.ScmTok
import Verif.Lemmas.ScmPrint
import Verif.Props.Scm
import Verif.Model.Yaml
import Verif.Spec.Yaml
import Verif.Lemmas.YamlLoad
import Verif.Lemmas.YamlMissed
import Verif.Lemmas.YamlPrint
import Verif.Lemmas.YamlSafe
import Verif.Props.Yaml
import Verif.Model.Xml2
import Verif.Spec.Xml2
import Verif.Lemmas.Xml2Load
import Verif.Lemmas.Xml2Save
import Verif.Props.Xml2
import Verif.Model.Udo
import Verif.Spec.Udo
import Verif.Lemmas.Udo
import Verif.Lemmas.UdoGraph
import Verif.Props.Udo
import Verif.Model.UnionDisc
import Verif.Spec.UnionDisc
import Verif.Lemmas.UnionDisc
import Verif.Props.UnionDisc
import Verif.Model.Discr
import Verif.Spec.Discr
import Verif.Lemmas.DiscrFlags
import Verif.Lemmas.Discr
import Verif.Props.Discr
import Verif.Model.SizeField
import Verif.Spec.SizeField
import Verif.Lemmas.SizeField
import Verif.Props.SizeField
import Verif.Model.Print
import Verif.Spec.Print
import Verif.Lemmas.Print
import Verif.Props.Print
import Verif.Model.Layout
import Verif.Spec.Layout
import Verif.Lemmas.Layout
import Verif.Props.Layout
import Verif.Model.Override
import Verif.Spec.Override
import Verif.Props.Override
import Verif.Model.XdrUnion
import Verif.Spec.XdrUnion
import Verif.Lemmas.XdrUnion
import Verif.Props.XdrUnion
import Verif.Model.FieldName
import Verif.Spec.FieldName
import Verif.Props.FieldName
import Verif.Model.Message
import Verif.Spec.Message
import Verif.Props.Message
import Verif.Model.Func
import Verif.Spec.Func
import Verif.Props.Func
import Verif.Model.Detect
import Verif.Spec.Detect
import Verif.Props.Detect
import Verif.Model.Validate
import Verif.Spec.Validate
import Verif.Props.Validate
import Verif.Model.AnonLoad
import Verif.Spec.AnonLoad
import Verif.Props.AnonLoad
import Verif.Model.Names
import Verif.Spec.Names
import Verif.Props.Names
import Verif.Model.ObjType
import Verif.Spec.ObjType
import Verif.Props.ObjType
import Verif.Model.PtrTypes
import Verif.Spec.PtrTypes
import Verif.Props.PtrTypes
