# Formal model of deluxe in Lean 4

Source: `/repo` (deluxe 0.5.0, crates `deluxe`, `deluxe-core`, `deluxe-macros`).
The model is in `lean/Verif/Model`, the vocabulary of the statements in `lean/Verif/Spec`, helper
lemmas in `lean/Verif/Lemmas`, the property theorems in `lean/Verif/Props`.
`properties.jsonl` lists the properties, `MANIFEST.json` maps each to its theorems,
`seeded/` records the mutation tests. In `seeded/LOG.jsonl`, `claim` is the claim an edit was written against, with the numbers of that time (some claims were numbered anew later), and `caught_as` says what became of it: its own theorems failed, its own theorems rest on a helper lemma whose proof failed (`lost_through_helpers`: this shows that the proof no longer goes through, not that the statement is false), only theorems of other claims failed, or nothing failed. `failed` has the theorems whose own proofs failed. `whole_build_rechecked` is false where the build with the edit was not carried to its end.

## 1. What is modelled

| Rust | Lean | file |
|---|---|---|
| `proc_macro2::TokenTree`, `Span` | `Tok`, `Span` | `Model/Basic` |
| `syn::parse::ParseBuffer` | `Stream` (remaining tokens, end span, syn's shared "unexpected" cell) | `Model/Basic` |
| `syn::Error` | `SynErr` (non-empty list of located messages) | `Model/Basic` |
| `Result<T>` plus panics | `Res` (`ok`, `err`, `panic`) | `Model/Basic` |
| `Parser::parse2` | `topParse` | `Model/Top` |
| core `Errors` (`util.rs`) | `Errors` | `Model/Errors` |
| core `parse_helpers.rs` | one definition per function | `Model/Helpers`, `Model/FieldStatus` |
| path helpers, `path_matches`, `validations.rs`, unknown-key suggestions | plain functions | `Model/Paths` |
| core `small_string.rs` | three representations and their operations; as a field | `Model/SmallStr`, `Model/KeyString` |
| core `parse_meta.rs`, `parse_helpers.rs`: `ToKeyString`, `key_to_string` | what is written piece by piece, and what `with_key_string` passes on | `Model/KeyString` |
| core `parse_attributes.rs`: `ContainerFrom` | what is made of the object for each type of a container field | `Model/Container` |
| traits `ParseMetaItem`, `ParseMetaFlatNamed/Unnamed`, `ParseMetaAppend`, `ParseMetaRest` | records of functions `Dict`, `FlatNamed`, `FlatUnnamed`, `Append`, `Rest`; default methods in `Dict.mk'` | `Model/Dict` |
| implementations in `parse_meta.rs`, `util.rs` (primitives, strings, options, wrappers, arrays, tuples, collections, sets, maps, `Flag`, `SpannedValue`, `TokenStream`, syn nodes) | record combinators | `Model/Types` |
| the types of `proc_macro` (`parse_meta.rs:1084-1201`) | `convertTok`, `pmTokenTreeDict` and others | `Model/ProcMacro` |
| core `with.rs` and the `define_with_*` macros | `fromStrDict`, `quotedDict`, adapters | `Model/With` |
| generated code of structures (`macros/types/field.rs`, `struct.rs`) | interpreter over `StructDef`/`Field` | `Model/Derive` |
| traits of transparent structures (`struct.rs:246-365`) | `implFlatNamed`, `implFlatUnnamed`, `implRest`, `implAppend` | `Model/Transparent` |
| head of attribute implementations: object type, lifetime, parameters, bounds (`macros/parse_attributes.rs:92-102, 150-162, 202-330`) | `containerOf`, `head`; types as far as the macro looks at them (`Ty`) | `Model/Header` |
| static cells of `field_names` (`macros/types/field.rs`, `macros/types/enum.rs`) | `NamesCode`, `Cells` | `Model/Cells` |
| variables and inferred calls of the generated code (`macros/types/{field,struct,variant,enum}.rs`, `macros/parse_meta_item.rs`, `macros/parse_attributes.rs`) | `Code`, `Decl.fns` and the pieces they are made of | `Spec/Scope`, `Model/Scope` |
| functions that the generated code calls for the fields (same files) | `Call`, `StructDecl.calls`, `EnumDecl.calls` | `Spec/Calls`, `Model/Calls` |
| the functions in the generated implementations and their generic parameters (`macros/parse_meta_item.rs`, `macros/types/struct.rs`) | `metaImpls`, without the bodies, which are elsewhere; that type parameters are not hygienic is a rule of the language | `Model/Impls` |
| the texts of messages (`core/parse_helpers.rs`, `core/validations.rs`, `core/parse_meta.rs`, `core/util.rs`) | `Text.render`; the printing of tokens is a parameter | `Model/Render` |
| the derive macros from item to output (`macros/lib.rs`, `macros/util.rs`, top level of `parse_meta_item.rs` and `parse_attributes.rs`) | `deriveMacro`; the crate lookup and the item parser are parameters | `Model/Glue` |
| generated code of enums (`variant.rs`, `enum.rs`) | interpreter over `EnumDef`/`Variant` | `Model/Enum` |
| attribute derives, `HasAttributes`, `Container`, `ref_tokens`/`take_tokens` (`parse_attributes.rs`, `attributes.rs`, `has_attributes.rs`) | `AttrTarget`, `HasAttrs`, `refTokens`, `takeTokens`, `parseStructAttrTokens` | `Model/Attributes`, `Model/Helpers` |
| how the derives read a definition (`parse_attributes` of `Field`, `Struct`, `Variant`, `Enum`) | `FieldIn.read`, `StructIn.read`, `VariantIn.read`, `EnumIn.read`; `toDef` gives the definition that the interpreters take | `Model/Defs` |

So the chain *attribute tokens on a definition → accepted definition → generated parser → tokens of a
user → value or errors* is modelled end to end; C69 goes through all of it.

Conventions:

* A parser is a function from a stream to an outcome **and** the stream after it, also when it
  fails, because deluxe recovers from errors and goes on with the same stream.
* A list of attribute inputs (`&[S]`) is a list of streams.
* A mutable capture of a closure (field slots, `Errors`) is an explicit state argument (`Acc`).
* `panic!`, `unreachable!`, failing `unwrap` are the outcome `Res.panic`; "never panics" is then a theorem.
* Loops that run until a stream is empty carry fuel equal to the number of remaining tokens plus one.
  Running out of fuel is `Res.panic`, so the no-panic theorems also prove termination.
* Error messages are data (`Text`), one constructor per format string with its arguments; the
  constructor cites the line of the format string.
* Everything external is a field of the class `Env` (span joining, string similarity) or a parameter
  (`SynLib` and other syn node parsers, `FromStr`, user functions, expressions in attributes).
  Theorems hold for every `Env` and every parameter, under stated conditions such as `Good`
  (ends without panic and only consumes from the front).

How statements are phrased: `Spec/Items` says what it means for tokens to be a list of items
(`Items`, `ItemsAll`) read by given parsers, without referring to the loops of the model; `Spec/Struct`,
`Spec/Enum`, `Spec/TupleStruct`, `Spec/Positional`, `Spec/Defs` say what a list of items means for a definition.
Property theorems relate the model's functions to these. Each file of `Props` ends with examples
that meet the hypotheses.

## 2. Assumptions about syn and proc_macro2 (not in /repo)

* Token trees are identifiers, single-character punctuation with spacing, literals and delimited
  groups. Invisible (`None`-delimited) groups are not modelled.
* `parse::<Token![x]>` for a one-character token looks at the next character only; `::` needs two
  colons, the first one joint. A failing `parse`/`step` does not move the stream.
* `fork` copies the position and gets a fresh "unexpected" cell. The content of a delimited group
  shares the cell of its parent; dropping a buffer with tokens left records the first leftover token
  in the cell unless one is recorded. `Parser::parse2` fails with `unexpected token` if the cell is
  set or tokens are left after the closure succeeded.
* `parse::<Nothing>()` consumes nothing and always succeeds.
* `Error::combine`/`extend` append messages; iteration yields them in order.
* Spans are numbers; `Span::join` is the parameter `Env.join`. The span of a group and that of its opening
  delimiter are not distinguished. At the end of a group `Cursor::span` is taken to be the closing delimiter, like
  `ParseBuffer::span`; old versions of syn 2 give the call site there.
* `proc_macro::Ident::new` panics for a raw identifier. The text of a literal is read back by a parameter
  (`relit`), and which words `syn` takes for keywords is another one.

## 3. Trusted base

Lean's kernel; the axioms `propext`, `Classical.choice`, `Quot.sound` (at most:
`Verif/Axioms.lean` prints them for every theorem of the manifest during the build); the reading of the
Rust code recorded in the comment above each definition; the assumptions in section 2. No other axioms,
no `sorry`, no `native_decide`, no `bv_decide`. No module imports Mathlib.

## 4. How the proofs are organised

| properties | model | proof |
|---|---|---|
| C01, C02, C11, C50 | `Errors`, `topParse`, `FieldStatus` | induction on operation sequences, case analysis |
| C03-C07, C12, C13, C16, C49 | helpers and paths | induction on tokens or segments |
| C08-C10 | `parseStruct`, `parseTupleStruct` with a stateful callback | induction against an item-list specification |
| C14, C15 | `SmallStr` | refinement to plain strings over operation sequences |
| C17-C19, C58, C60, C65 | `takeTokens`, `refTokens`, `parseStructAttrTokens`, `AttrTarget` | loop invariants, partition of the attributes |
| C20-C29, C51-C53, C59, C61, C62 | record combinators | induction over items; `Lemmas/Reads`, `Lemmas/Runs` |
| C30-C42 | structure interpreter | invariants over the field slots (`Lemmas/Struct`, `Lemmas/TupleStruct`), refinement to `Spec/Struct` |
| C43-C45, C54, C63, C64 | enum interpreter | `Lemmas/Enum`, `Lemmas/EnumOut`, ordered maps in `Lemmas/Ordered` |
| C46-C48, C66-C69 | reading of definitions | invariants over the attribute loop (`Lemmas/Defs`), fold over well-formed items (`Lemmas/DefItems`, `Lemmas/DefTypes`) |
| C55 | progress of parsers | compositional: `Lemmas/Progress` and one lemma per combinator |
| C56 | locality of parsers | compositional: `Lemmas/Local`, one theorem per type in `Props/Local`, and an inductive family of all types |
| C70, C71 | transparent structures | case analysis over the definition |
| C72 | head of attribute implementations | case analysis; induction for fresh names |
| C73 | `deriveMacro` | case analysis, with C67 and C69 |
| C74 | `acceptsAll` | induction on the nesting, with C31 |
| C75 | rest fields | C31 and C27 together |
| C76 | `Option` | the forms of C05 |
| C77 | keys of enums | C43, C45 and C34 together |
| C78 | value of a variant | equality of the two parsers |
| C79 | append fields | C31 and C26 together |
| C80 | functions and default of a whole value | the parser without them, related through every combinator |
| C81 | switched-off attributes | every pass of the generated code unchanged by dropping them |
| C82 | flattened fields against fields written out | key ownership split between the two lists of fields, then C31 on both sides |
| C83 | the two ways to write a value made of items | both forms reduce to the same parser on the content of the group |
| C84 | a flattened tuple structure is read like its fields | a tuple structure reads one stream like the list of its readers (`unnamedFlat_one`); that list splits at the flattened field |
| C85 | the number of a missing tuple field | from the exact messages of C41; violations by computation on concrete definitions |
| C86 | the types of `proc_macro` | a relation between two parsers that the default methods preserve |
| C87 | `rest` beside other fields | as C84, with the field taken out instead of written out |
| C88 | left-out fields and bare names | tables over the types as inductive relations, carried into structures by C31 and C35 |
| C89 | keys beside a named variant | the messages of C43 for both settings of `validate` |
| C90 | `ToKeyString` | induction over a table of types; writing piece by piece into a small string gives the concatenation |
| C91 | `SmallString` as a field | the source text of a literal is longer than its value |
| C92 | containers without an object | every way of reading keeps what C37 says of a field that is not read; `fillContainer` fills the default |
| C93 | containers | the same for attributes, with the object as the value of the field |
| C94 | attributes of definitions | each written form is read fully by the parser of its key, option lists by a fold over their items; then the theorems about accepted definitions |
| C95 | mistakes in attributes | each step of the loop over a list takes its whole item and pushes its messages (`Takes`), or the item is not allowed and there are errors; induction over items and streams |
| C96 | variables of the generated code | the code as a tree of uses, bindings, blocks and closures; one lemma per piece giving the variables it needs and binds; the two failing pieces are reached exactly under the stated condition |
| C97 | types of the generated code | the same tree, each open call marked with whether its type is known; both directions by following which pieces the fields and variants produce |
| C98 | attribute macro arguments and attributes | both run the same code on the same stream, except for label, object and place; a relation between runs that ignores them is carried through every pass (`Lemmas/Agree`), and the two checks at the end of the input are compared |
| C99 | skipped variants | removing them renumbers the others; the run of the small enum is mapped to that of the big one, state by state, with the renumbering applied to the value |
| C100 | where messages point | a set of spans closed under joining; `Keeps` says that a computation stays inside it and is carried through every combinator; the item theorem combines it with C56 |
| C101, C102 | order of fields, skipped fields | both declarations are compared through a list of positions; the outcome of the derived code is characterised by its items (`namedFlat_ok`, `namedFlat_msgs`), so the proofs permute that characterisation instead of following two runs; the definition theorem follows two runs of the attribute parser in step |
| C103 | cells of field_names | the code of `field_names()` as a tree, run on a store of once-cells; invariant: a filled cell holds what its only initializer collects, and no cell is inside its own initializer because the tree is finite |
| C104 | calls for fields | the quotations of the derives as lists of calls; each piece of code only makes documented calls (`AllDocumented`), and the reading call is in one of them |
| C105 | order of variants | positions are renamed by the permutation (`VariantsMoved`); a name selects at most one variant, and the flattened variants are kept in an ordered map, so both orders give the same one; messages up to permutation (`PermBy`) |
| C106 | generated implementations | by cases on shape and options; the generic parameters are listed per function; exactly when each function is generated in `ImplsExact` |
| C107 | repeated attributes | the loop with the attributes seen so far; a status once set stays set |
| C108 | locations that cover | a relation on spans as parameter; induction on the inputs |
| C109 | locations do not matter | a map on locations as parameter; every function commutes with it (two worlds related function by function); forgetting all locations is one such map |
| C110 | texts of messages | the text is a code that can be read back: prefixes that are apart, quoted names, separated lists |
| C111 | values can be written | induction over the types: tokens for the parts, with commas and delimiters, and the theorems on what lists, structures and enums read; for flat fields items among others, which one parser finds and the others pass over; for flattened fields of tuple structures the items they take, one field after the other |
| C112 | nothing is rejected afterwards | induction over the types: every parser that succeeds leaves the note on unexpected tokens empty, since it checks the end of the groups that it opened or read them from a copy |
| C113 | errors of attributes | induction over the attributes: the outcome of `parse_tokens` is that of the function unless something is left, and this composes |
| C114 | suggestions | the reports of C95 with the invariant of the search for the closest name |
| C115 | `r#` | the exact readings of C47 and C48 under both identifiers; C83 for keys |
| C116 | flattened variants as structures | the exact outcome of C45 for the only variant that applies, compared with the reading of its fields as a structure |
| C117 | misplaced attributes | the run over a list of C95, with entries that are refused and skipped |
| C118 | end of a list | a predicate on parsers that is kept by all combinators, by induction over the types as for C56; structures and enums by reading their items strictly, flattened fields by induction over their kinds |
| C119 | extended definitions | a relation between two definitions; the owner of every key read is the same field, so the items read are the same, then field by field as for C31; for enums the choice of the variant is compared step by step; for tuple structures the positions of the items |
| C120 | independent attributes | only the matching attributes are read, and extraction filters the list; filters commute |
| C121 | default of a structure | the readers are equal: the same arms, no field missing in either, a slot that failed is accompanied by a message |
| C122 | aliases | the items read of both inputs correspond one to one; what the structure takes from an item does not contain the key as written |
| C123 | renaming | the items of both inputs are read in parallel by the two definitions; what decides about the value (position of the field, value, whether the key is in order) is the same |
| C124 | ignored items | both inputs are read in parallel, where the items left out are skipped up to the comma and contribute neither values nor messages |
| C125 | a field depends on its own items | what is seen of the items of one field is a function of these items alone; then the value of a field is determined by them (`Source.unique`) |
| C126 | leaving out items | the items that are left are read as before and are still without duplicates and unknown keys; a field without an item takes its value from the next source |
| C127 | exchanging items | the other items are read as before, the new one as on its own; both lists are the same for the flat fields without the item |
| C128 | adding items | the other items are read as before, the new one as on its own; what was read for a field was read from one of the items with a name of it |
| C129 | single tokens | case analysis on the first token, in both directions |
| C57 | with modules | case analysis |

## 5. Findings

Where the code does not do what its documentation says, or does something a user would not expect,
there is a theorem with a concrete witness (suffix `_violated`, or a name that says what happens) and a
theorem for what does hold (suffix `_partial` if that is less than the property).

| what | where | theorem |
|---|---|---|
| `parse_empty` moves only the first of several errors to the given span | core/parse_helpers.rs | C11 |
| Flat parse of `Punctuated` stops after the first separator | core/parse_meta.rs | C51 |
| `TokenStream` as flat unnamed field fails on any comma | core/parse_meta.rs | `c52_flat_violated` |
| A raw identifier for a `proc_macro::TokenTree` or `proc_macro::Ident` makes the macro panic; keywords are refused for the latter | core/parse_meta.rs:1107-1109, 1191-1199 | `c86_raw_violated`, `c86_raw_ident_violated`, `c86_keyword_violated` |
| A `proc_macro::TokenStream` takes the items after its own, so that their fields are missing; it is required | core/parse_meta.rs:1138-1143 | `c86_tokenStream_violated`, `c86_hidden_violated`, `c86_tokenStream_empty_violated` |
| A `rest` map reads the keys of all items, also of those that belong to other fields, with its own key type. `HashMap<String, T>`, for which `ParseMetaRest` is implemented, can be parsed from no non-empty input: a path is not a string literal, and a string literal is not a key. `HashMap<syn::Path, T>` fails as soon as a field `r#type` is given | core/parse_meta.rs:792 | `c87_literals_violated`, `c87_string_violated`, `c87_keyword_violated` |
| In attributes, an enum with a flattened variant that takes any key silently drops unknown keys beside the name of another variant; as a value of the type they are reported | macros/types/enum.rs:44-67, macros/parse_attributes.rs:134-140 | `c89_dropped_violated` |
| A field of type `SmallString` holds the source text of the literal: quotes, escapes, `r#` and suffix included | core/small_string.rs:248-250 | `c91_smallString_violated` |
| The documentation says that `default` is implied on container fields; the `ParseMetaItem` derive of an enum reports that it is missing | macros/parse_meta_item.rs:232-244, macros/lib.rs:83-88 | `c92_enum_violated` |
| A container field `&mut T` or `Option<&mut T>` is accepted by the `ParseAttributes` derive, and panics with `not implemented` whenever a value is read | core/parse_attributes.rs:553-568, 612-627 | `c93_mut_violated` |
| A variant whose name in snake case is no identifier (`_1`, `__`) makes the derive panic in `Ident::new`, unless it is renamed or flattened | macros/types/variant.rs:635-642 | `c67_variant_name_violated`, `c67_variant` |
| A transparent variant whose only field is `rest` is accepted, and then the macro panics in `unwrap()` | macros/types/variant.rs:74-83 | `c73_panics_violated`, `c73_generate_violated`, `c69_transparent_violated` |
| A transparent structure with `and_then` on a field generates code that uses `errors`, which does not exist | macros/types/struct.rs, field.rs | `c96_transparent_violated` |
| A variant with `flatten` and `transparent` generates code that uses `input` where it does not exist | macros/types/variant.rs | `c96_variant_violated` |
| A flattened field with `map` or `and_then` generates a call on a type that nothing determines | macros/types/field.rs:333-352 | `c97_flatten_violated` |
| A flattened variant with a field `flatten(prefix = ..)`, even a skipped one, generates a `Vec<Cow<str>>` for a cell of `Vec<String>` | macros/types/enum.rs:100-107 | `c97_prefix_violated` |
| `deluxe::parse` refuses a comma after the last field of a tuple structure (`true, false,`) and a lone comma for a unit structure, both of which are accepted in `#[attr(..)]` | core/parse_helpers.rs (parse_tuple_struct), src/lib.rs:642-665 | `c98_trailing_comma_violated` |
| A skipped variant that is flattened still makes the names of its fields known: `enum E { A, #[deluxe(skip, flatten)] B { x: bool } }` accepts `a, x = 1` without a message | macros/types/enum.rs:73-148, variant.rs:468-497 | `c99_flatten_violated` |
| The names of skipped variants are compared with the others: `enum E { A, #[deluxe(skip, rename = a)] B }` is rejected | macros/types/enum.rs:260-276 | `c99_names_violated` |
| `#[x(a =)]` and `#[x[a]]` are reported at the call site of the macro instead of at the attribute, since the delimiters of an attribute are made anew without their spans | core/parse_helpers.rs:944-956, 983-995 | `c100_call_site_violated` |
| A field with `skip` and `rest` (or a skipped `flatten` of a type that accepts all keys) makes the structure accept and drop every unknown key | macros/types/field.rs:299-314 | `c102_rest_violated` |
| Which of two equally similar names is suggested depends on the order of the fields | core/parse_helpers.rs:900-916 | `c101_suggestion_violated` |
| All instances of a generic type that flattens a parameter share one list of names: the second instance refuses its own keys as unknown | macros/types/field.rs:367-374, macros/types/enum.rs:151-158 | `c103_generic_violated` |
| `Wrap<Wrap<T>>` with a flattened parameter waits for itself on the first use | macros/types/field.rs:367-374 | `c103_nested_violated` |
| `flatten` with `with`, or on a skipped field, still needs `ParseMetaFlatNamed` of the type of the field | macros/types/field.rs:299-314, 329-349 | `c104_flatten_with_violated`, `c104_skip_violated` |
| `map` and `and_then` on the field of a transparent structure cannot take another type than that of the field | macros/types/struct.rs:221-229 | `c104_transparent_map_violated` |
| `with` on the field of a transparent variant is ignored | macros/types/variant.rs:84-91 | `c104_variant_with_violated` |
| Whether an enum is accepted depends on the order of its variants: only the first `container` may have `lifetime` or `ty` | macros/types/enum.rs:236-260 | `c105_container_violated` |
| A transparent structure with `flatten_named`, `flatten_unnamed`, `append` or `rest` whose field has a type called `S` (or that has such a parameter, or a lifetime `'s`; with `append` also `I` and `P`) does not compile: the generated function declares this name | macros/types/struct.rs:285, 309, 328, 346 | `c106_names_violated`, `c106_redeclared_violated` |
| The `and_then` functions of a transparent structure are run before the rest of the parentheses is looked at: the message for `w(x)` may be that of a function, not that for the stray token, and differ from that for `w = (x)` | `macros/types/struct.rs:236-246`, `core/parse_helpers.rs:255-263` | `c70_message_violated`, `c83_transparent_violated` |
| A field's `skip` given twice is reported as a duplicate of `container` | macros/types/field.rs:1155 | `c107_skip_violated` |
| `with = maybe_quoted` on a collection or structure does not accept `name(..)`: the parentheses must hold one item, `name([..])` | core/with.rs:248-253 | `c57_maybe_quoted_list_violated` |
| `all_or_none` prints the name of the attribute that is set without the prefix, the missing ones with it; the documentation promises it for the names | `core/validations.rs:66` | `c49_own_prefix_violated` |
| `Some(None)` cannot be given for a field of the type `Option<Option<T>>` | `core/parse_meta.rs:411` | `c111_some_none_false` |
| `u = (junk)` for a field `u: ()` is rejected only after the whole input was read, and is accepted without notice if the structure also has an appended field or is a variant of an enum | `core/parse_meta.rs:1440-1446`, `core/parse_meta.rs:1303-1319` | `c112_unit_violated`, `c112_unit_accepted`, `c112_unit_enum_accepted`, `c112_synParen_violated` |
| A malformed attribute (`#[x = 1]`) is blamed on the first token of a correct attribute in front of it, and alone it is reported as an unexpected token and not as missing parentheses; a token left in any attribute hides all other errors | `core/parse_helpers.rs:644-665`, `core/parse_helpers.rs:684-723` | `c113_malformed_attribute`, `c113_report`, `c113_hidden` |
| For a misspelt attribute of an enum `allow_unknown_fields` is never suggested; on tuple fields attributes are suggested that are refused there | `macros/types/enum.rs:22-25`, `macros/types/field.rs` | `c114_enum_violated`, `c114_allowed_violated` |
| `r#` is not removed from keys and from the own name in renames: key `r#x` is unknown where the field is `x`; a variant `X` cannot be renamed to `X` although its name is `x` | `macros/types/field.rs:1185-1200`, `macros/types/variant.rs:572-645` | `c115_key_violated`, `c115_own_violated`, `c115_camel_violated` |
| A field of type `Option` may be left out in a structure but not in a flattened variant, unless it has the attribute `default` | `macros/types/variant.rs:37-53` | `c116_optional_violated`, `c116_violated` |
| `rename = x` or `alias = x` on a tuple field is answered with `unexpected token` only, as its value is not skipped | `macros/types/field.rs:1099, 1128` | `c117_rename_violated` |
| The span of a `SpannedValue` that is the last item reaches to the end of the list | `core/util.rs:323-356` | `c118_spanned_violated` |
| `#[attr = (..)]` is accepted like `#[attr(..)]`; lists in braces or brackets are not | core/parse_helpers.rs:400-420 | `c65_forms` |
| `[T; 0]` accepts a lone comma, other empty lists do not | core/parse_meta.rs:459-535 | `c118_empty_array`, `c118_lone_comma_violated` |
| The index of a missing tuple field does not count container fields and counts twice the fields behind flattened ones | macros/types/field.rs:523-652 | `c85_container_violated`, `c85_flattened_violated` |
| A new field of a structure that allows unknown keys makes inputs invalid that were accepted | `macros/types/field.rs:875-900` | `c119_unknown_violated` |
| A tuple structure is refused as a flag if some field has no default, even if the type of that field does without a value | `macros/types/field.rs:982-1008` | `c119_tuple_flag_violated` |
| A tuple structure that has all its items does not look at further attributes, so one with just a comma passes until a field is added | `core/parse_helpers.rs:513-545` | `c119_tuple_streams_violated` |
| An enum with a default gives it for unknown keys, so a new variant changes what such inputs mean | `macros/types/variant.rs:389-410` | `c119_enum_default_violated` |
| The object in a container field depends on which other types were extracted before | `macros/parse_attributes.rs:302-359` | `c120_container_violated` |
| `map` and `and_then` of a field are applied to the field's default but not to the value from the structure's default | `macros/types/field.rs:655-711` | `c121_functions_violated` |
| An item may be left out if its type has a default, but not if all fields of the type have one | `macros/parse_meta_item.rs:202-205` | `c121_missing_violated` |
| Collections, sets and maps drop the errors collected so far when a comma is missing | core/parse_meta.rs | `c23_malformed_drops_errors` |
| A map used as rest does not skip a value that fails, so it hides what follows | core/parse_meta.rs | `c27_failing_value_hides` |
| A parser that consumes nothing makes list parsers loop forever | core/parse_meta.rs | C55 |
| Content in the parentheses of `()` and flags is accepted below the top level | core/parse_meta.rs, util.rs | `c53_content_violated`, `c53_inline_violated` |
| Tokens left over replace the collected errors by `unexpected token` | core/parse_helpers.rs | `c60_leftovers_hide_errors` |
| The span of `SpannedValue` reaches to the token after the value | core/util.rs | `c61_end_violated` |
| `TokenTree` and `Punct` take the comma for the value of `key = ,` | core/parse_meta.rs:947-956, 1052-1061 | `c56_tokenTree_violated` |
| A missing renamed field is reported under its Rust name | macros/types/field.rs:609 | `c36_renamed_violated` |
| `flatten` without prefix inside a prefixed `flatten` reads unprefixed keys but advertises prefixed ones | macros/types/field.rs:425 | `c40_nested_violated` |
| A failing `and_then` on the field of a transparent variant panics | macros/types/variant.rs:75-102 | `c44_and_then_violated` |
| A flattened variant whose required fields include those of another shadows it or is shadowed | macros/types/enum.rs | `c45_ambiguous_violated` |
| "expected one of" lists only the first name of a variant | macros/types/variant.rs | `c54_alias_violated` |
| An enum with `default` ignores unknown keys when no variant is named | macros/types/variant.rs | `c63_default_violated` |
| A flattened enum reports keys of its parent once a flattened variant is selected | macros/types/variant.rs | `c64_flattened_violated` |
| The container field holds a clone without the extracted attributes when extracting | macros/parse_attributes.rs | `c18_container_differs` |
| `Expr::Infer` has attributes that can be read but not extracted | core/attributes.rs | `c58_infer_violated` |
| `maybe_quoted` does not take the plain form of string types; adapters accept flags and missing values that the plain types reject | core/with.rs | `c57_*_violated` |
| Duplicate field names in a variant are accepted; the later field never gets the key | macros/types/variant.rs | `c46_variant_violated` |
| `skip` can be combined with `flatten` or `container` | macros/types/field.rs | `c47_skip_violated` |
| `default = ..` swallows all attributes after it | macros/types/field.rs:38-40 | `c47_after_default_violated`, C66 |
| A transparent structure around an `Option` may not be left out | macros/types/struct.rs, macros/parse_meta_item.rs:376-383 | `c70_missing_violated` |
| `transparent(flatten_unnamed)` on a tuple structure counts missing fields from 0: `let index = 0` hides the parameter | macros/types/struct.rs:229-233, 311-316 | `c71_index_violated` |
| Without a container field the object type is a new parameter `T`, which hides a user's type of this name and clashes with a constant parameter | macros/parse_attributes.rs:258-268 | `c72_capture_violated`, `c72_const_violated` |
| `container = false` still restricts the object type to that of the field | macros/parse_attributes.rs:92-102, 150-162 | `c72_field_violated` |
| `transparent` on a structure whose field is `rest` is accepted and ignored | macros/types/struct.rs:118-127, 427-443 | `c70_rest_violated` |
| An enum that accepts all keys does not announce it, so a structure that flattens it reports them | macros/parse_meta_item.rs:283-301 | `c74_enum_violated` |
| A structure with `rest` reports all other keys when flattened into a tuple structure | macros/parse_meta_item.rs:157-173 | `c74_tuple_violated` |
| `transparent` on a variant whose field is `rest` is accepted, then the macro panics | macros/types/variant.rs:75-84 | `c69_transparent_violated` |
| A key with the name of a `rest` field is dropped without a message | macros/types/field.rs:397-416 | `c75_own_name_violated` |
| The `rest` map of a flattened structure also gets the keys of the parent, with a prefix also its own keys | macros/types/field.rs:315-388 | `c75_flattened_violated`, `c75_prefix_violated` |
| `k(..)` is an error for an optional derived structure or sequence | core/parse_meta.rs:411-442 | `c76_struct_violated`, `c76_sequence_violated` |
| Keys of flattened variants beside a named variant are not reported at top level: the test `!validate` is the wrong way round | macros/types/variant.rs:340-354, 421-434 | `c77_beside_named_violated` |
| Names announced by an enum include those of skipped flattened variants | macros/types/enum.rs:68-165 | `c77_skipped_violated` |
| In an enum flattened with a prefix the fields inside a variant's parentheses need the prefix too | macros/types/variant.rs:193-216, field.rs:914 | `c78_prefix_violated` |
| `default` on an `append` field is accepted and never used | macros/types/field.rs:655-663, 715-740, 1182-1189 | `c79_default_violated` |
| `flatten = false` excludes `rename`, `container = false` on two fields counts as two containers, `transparent = false` needs a structure that can be transparent: presence is looked at, not the value | macros/types/field.rs:1182-1189, struct.rs:426-446, 530-536 | `c81_excluded_violated`, `c81_variant_violated`, `c81_container_violated`, `c81_transparent_violated` |
| `Box`, `Rc`, `Cell`, `SpannedValue` and others do not forward `missing_meta_item`, so an `Option` in them may not be left out | core/parse_meta.rs | `c29_missing_violated` |
| A flattened structure may have a key of the outer one; the item is given to both | macros/types/field.rs:693-925 | `c82_shared_violated` |

## 6. Not modelled

* Parsers of syn nodes, `FromStr` implementations, user closures and expressions: arbitrary parameters. So are
  heck's conversion to snake case and the test of `Ident::new` (`SynLib`); that heck makes `1` of `_1` and nothing of
  `__`, and that `Ident::new` panics on both, is known from their documentation.
* Token output of the derive macros as text; generics, lifetimes and trait bounds apart from the head of the
  attribute implementations (`Model/Header`). Of the syntax of the generated code the model has the variables it
  binds and uses and the calls whose types are inferred (`Model/Scope`, C96 and C97), and the functions called for the fields (`Model/Calls`,
  C104); elsewhere it takes the
  behaviour of the code. Definitions that are accepted but whose generated code does not compile are treated there as
  if it did or excluded by a hypothesis, as said at the theorem. Type checking beyond C97, borrow checking and moves
  are not modelled.
* The static cells behind `field_names` are followed in `Model/Cells` only (C103); elsewhere the names are those of the
  type itself, which for generic types holds only for the first instance that is used.
* The lookup of the crate in Cargo.toml (a parameter of `Model/Glue`), compile error rendering.
* Memory, performance, iteration order of `HashMap`.
