import Verif.Model.Basic
import Verif.Model.Errors
import Verif.Model.Helpers
import Verif.Model.Paths
import Verif.Model.FieldStatus
import Verif.Model.SmallStr
import Verif.Model.Dict
import Verif.Model.Types
import Verif.Model.Top
import Verif.Model.Derive
import Verif.Props.Errors
import Verif.Props.Tokens
import Verif.Props.Paths
import Verif.Props.Strings
import Verif.Lemmas.Progress
import Verif.Lemmas.Tuple
import Verif.Lemmas.Types
import Verif.Lemmas.Runs
import Verif.Props.Progress
import Verif.Props.Loops
import Verif.Spec.Items
import Verif.Lemmas.Reads
import Verif.Lemmas.Keys
import Verif.Props.AttrTokens
import Verif.Props.Collections
import Verif.Props.Maps
import Verif.Spec.Positional
import Verif.Lemmas.Pos
import Verif.Props.Fixed
import Verif.Props.Types
import Verif.Props.Primitives
import Verif.Spec.Struct
import Verif.Lemmas.Derive
import Verif.Lemmas.Struct
import Verif.Props.Structs
import Verif.Props.Flatten
import Verif.Spec.TupleStruct
import Verif.Lemmas.TupleStruct
import Verif.Lemmas.StructDef
import Verif.Props.TupleStructs
import Verif.Model.Enum
import Verif.Spec.Enum
import Verif.Lemmas.Ordered
import Verif.Lemmas.Enum
import Verif.Lemmas.EnumOut
import Verif.Props.Enums
import Verif.Model.Attributes
import Verif.Lemmas.Attributes
import Verif.Props.Attributes
import Verif.Model.With
import Verif.Props.With
import Verif.Model.Defs
import Verif.Spec.Defs
import Verif.Lemmas.Defs
import Verif.Lemmas.DefItems
import Verif.Lemmas.DefGood
import Verif.Props.DefFields
import Verif.Lemmas.DefTypes
import Verif.Props.Defs
import Verif.Lemmas.Local
import Verif.Props.Local
import Verif.Model.Transparent
import Verif.Props.Transparent
import Verif.Model.Header
import Verif.Props.Header
import Verif.Model.Glue
import Verif.Props.Glue
import Verif.Props.UnknownKeys
import Verif.Props.RestField
import Verif.Props.Optional
import Verif.Props.EnumKeys
import Verif.Props.Variants
import Verif.Props.AppendField
import Verif.Props.AndThen
import Verif.Props.SwitchOff
import Verif.Props.SwitchOffEnum
import Verif.Props.Inline
import Verif.Props.Forms
import Verif.Lemmas.TupleFlat
import Verif.Props.TupleInline
import Verif.Props.Numbers
import Verif.Props.ProcMacro
import Verif.Props.RestOthers
import Verif.Props.LeftOut
import Verif.Props.EnumAttrs
import Verif.Props.KeyStrings
import Verif.Spec.Unread
import Verif.Lemmas.Unparsed
import Verif.Model.Container
import Verif.Props.Containers
import Verif.Spec.DefText
import Verif.Props.DefText
import Verif.Spec.DefBad
import Verif.Lemmas.DefBad
import Verif.Props.DefBad
import Verif.Spec.Scope
import Verif.Model.Scope
import Verif.Lemmas.Scope
import Verif.Props.Scope
import Verif.Props.ScopeEnum
import Verif.Props.ScopeTypes
import Verif.Props.ScopeCases
import Verif.Lemmas.Agree
import Verif.Props.TopParse
import Verif.Props.SkipVariants
import Verif.Props.AndThenText
import Verif.Props.Located
import Verif.Props.Reorder
import Verif.Props.ReorderFlat
import Verif.Props.Cells
import Verif.Props.Calls
import Verif.Props.CallCases
import Verif.Props.ReorderVariants
import Verif.Props.Impls
import Verif.Props.DefTwice
import Verif.Props.Cover
import Verif.Props.Reloc
import Verif.Model.Render
import Verif.Props.Render
import Verif.Spec.Write
import Verif.Props.Write
import Verif.Props.WriteDerive
import Verif.Props.Writable
import Verif.Lemmas.TidyTypes
import Verif.Lemmas.TidyDerive
import Verif.Props.Rejected
import Verif.Props.Reported
import Verif.Props.WriteFlat
import Verif.Props.WriteFlatEnum
import Verif.Props.WriteFlatDemo
import Verif.Props.ImplsExact
import Verif.Props.Suggest
import Verif.Props.RawNames
import Verif.Props.WriteTuple
import Verif.Props.FlatVariants
import Verif.Props.DefPlaces
import Verif.Props.LastItem
import Verif.Props.TrailingComma
import Verif.Props.TrailingFlat
import Verif.Props.TrailingEnum
import Verif.Props.TrailingBrace
import Verif.Props.Extended
import Verif.Props.ExtendedEnum
import Verif.Props.ExtendedTuple
import Verif.Props.Apart
import Verif.Props.FlatFallback
import Verif.Props.WholeDefault
import Verif.Props.Aliases
import Verif.Props.AliasesEnum
import Verif.Props.AliasesFlatEnum
import Verif.Props.Rename
import Verif.Props.RenameEnum
import Verif.Props.Ignored
import Verif.Props.IgnoredEnum
import Verif.Props.OwnItems
import Verif.Props.Omitted
import Verif.Props.Replaced
import Verif.Props.PrefixReads
import Verif.Props.Added
import Verif.Props.VariantItems
import Verif.Props.SingleToken
import Verif.Props.EnumItems
import Verif.Axioms
