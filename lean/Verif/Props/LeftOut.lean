import Verif.Props.Structs
import Verif.Props.With
import Verif.Model.ProcMacro
/-!
# C88: which fields may be left out, and which may be written as a bare name

Tables over the types (core/parse_meta.rs, core/util.rs) and `with` modules (core/with.rs).
-/
namespace Deluxe

variable {V : Type}

/-- The value of a field of this type, or with this `with` module, that is left out; `none` if the field is
required. -/
inductive LeftOut [Env] (lex : Str → Except SynErr (List Tok)) : {α : Type} → Dict α → Option α → Prop
  | option {α : Type} (d : Dict α) : LeftOut lex (optionDict d) (some none)
  | flag : LeftOut lex flagDict (some none)
  | tokenStream : LeftOut lex tokenStreamDict (some [])
  | fromStrDefault {α : Type} (conv : Str → Except Str α) (dflt : α) :
      LeftOut lex (fromStrDefaultDict conv dflt) (some dflt)
  | withOptional {α : Type} (d : Dict α) : LeftOut lex (withOptional d) (some none)
  | withSeq {α : Type} (d : Dict α) : LeftOut lex (withSeq d) (some [])
  | withMap {κ ν : Type} [DecidableEq κ] (kd : Dict κ) (keyStr : κ → Str) (vd : Dict ν) :
      LeftOut lex (withMap kd keyStr vd) (some [])
  | quoted {α : Type} {d : Dict α} {o} : LeftOut lex d o → LeftOut lex (quotedDict lex d) o
  | maybeQuoted {α : Type} {d : Dict α} {o} : LeftOut lex d o → LeftOut lex (maybeQuotedDict lex d) o
  | identity {α : Type} {d : Dict α} {o} : LeftOut lex d o → LeftOut lex (identityDict d) o
  | bool : LeftOut lex boolDict none
  | int {α : Type} (conv : Bool × Nat → Option α) : LeftOut lex (intDict conv) none
  | u8 : LeftOut lex u8Dict none
  | char : LeftOut lex charDict none
  | string : LeftOut lex stringDict none
  | ident : LeftOut lex identDict none
  | syn {α : Type} (p : M Stream α) : LeftOut lex (synDict p) none
  | synParen {α : Type} (p : M Stream α) : LeftOut lex (synParenDict p) none
  | tokenTree : LeftOut lex tokenTreeDict none
  | literal : LeftOut lex literalDict none
  | punct : LeftOut lex punctDict none
  | group : LeftOut lex groupDict none
  | unit : LeftOut lex unitDict none
  | seq {α : Type} (d : Dict α) : LeftOut lex (seqDict d) none
  | set {α : Type} [DecidableEq α] (d : Dict α) : LeftOut lex (setDict d) none
  | map {κ ν : Type} [DecidableEq κ] (kd : Dict κ) (keyStr : κ → Str) (vd : Dict ν) :
      LeftOut lex (mapDict kd keyStr vd) none
  | array {α : Type} (n : Nat) (d : Dict α) : LeftOut lex (arrayDict n d) none
  | tuple {α : Type} (ds : List (Dict α)) : LeftOut lex (tupleDict ds) none
  | punctuated {α : Type} (d : Dict α) (peekP : Stream → Bool) (parseP : M Stream Unit) :
      LeftOut lex (punctuatedDict d peekP parseP) none
  | wrapper {α : Type} (d : Dict α) : LeftOut lex (wrapperDict d) none
  | spanned {α : Type} (d : Dict α) : LeftOut lex (spannedDict d) none
  | fromStr {α : Type} (conv : Str → Except Str α) : LeftOut lex (fromStrDict conv) none
  | modPath {α : Type} (p : M Stream α) : LeftOut lex (modPathDict p) none
  | anyPath : LeftOut lex anyPathDict none
  | withSyn {α : Type} (p : M Stream α) : LeftOut lex (withSynDict p) none
  | synQuoted {α : Type} (p : M Stream α) : LeftOut lex (synQuotedDict lex p) none
  | pmTokenStream : LeftOut lex pmTokenStreamDict none

/-- What a field of this type, or with this `with` module, is if only its name, which has the span, is written; `none` if that is not
allowed. -/
inductive Bare [Env] (lex : Str → Except SynErr (List Tok)) : {α : Type} → Dict α → Span → Option α → Prop
  | bool {sp} : Bare lex boolDict sp (some true)
  | unit {sp} : Bare lex unitDict sp (some ())
  | flag {sp} : Bare lex flagDict sp (some (some sp))
  | tokenStream {sp} : Bare lex tokenStreamDict sp (some [])
  | option {α : Type} {d : Dict α} {sp o} : Bare lex d sp o → Bare lex (optionDict d) sp (o.map some)
  | wrapper {α : Type} {d : Dict α} {sp o} : Bare lex d sp o → Bare lex (wrapperDict d) sp o
  | fromStrDefault {α : Type} {conv : Str → Except Str α} {dflt : α} {sp} :
      Bare lex (fromStrDefaultDict conv dflt) sp (some dflt)
  | withOptional {α : Type} {d : Dict α} {sp} : Bare lex (withOptional d) sp (some none)
  | withSeq {α : Type} {d : Dict α} {sp} : Bare lex (withSeq d) sp (some [])
  | withMap {κ ν : Type} [DecidableEq κ] {kd : Dict κ} {keyStr : κ → Str} {vd : Dict ν} {sp} :
      Bare lex (withMap kd keyStr vd) sp (some [])
  | quoted {α : Type} {d : Dict α} {sp o} : Bare lex d sp o → Bare lex (quotedDict lex d) sp o
  | maybeQuoted {α : Type} {d : Dict α} {sp o} : Bare lex d sp o → Bare lex (maybeQuotedDict lex d) sp o
  | identity {α : Type} {d : Dict α} {sp o} : Bare lex d sp o → Bare lex (identityDict d) sp o
  | int {α : Type} {conv : Bool × Nat → Option α} {sp} : Bare lex (intDict conv) sp none
  | u8 {sp} : Bare lex u8Dict sp none
  | char {sp} : Bare lex charDict sp none
  | string {sp} : Bare lex stringDict sp none
  | ident {sp} : Bare lex identDict sp none
  | syn {α : Type} {p : M Stream α} {sp} : Bare lex (synDict p) sp none
  | synParen {α : Type} {p : M Stream α} {sp} : Bare lex (synParenDict p) sp none
  | tokenTree {sp} : Bare lex tokenTreeDict sp none
  | literal {sp} : Bare lex literalDict sp none
  | punct {sp} : Bare lex punctDict sp none
  | group {sp} : Bare lex groupDict sp none
  | seq {α : Type} {d : Dict α} {sp} : Bare lex (seqDict d) sp none
  | set {α : Type} [DecidableEq α] {d : Dict α} {sp} : Bare lex (setDict d) sp none
  | map {κ ν : Type} [DecidableEq κ] {kd : Dict κ} {keyStr : κ → Str} {vd : Dict ν} {sp} :
      Bare lex (mapDict kd keyStr vd) sp none
  | array {α : Type} {n : Nat} {d : Dict α} {sp} : Bare lex (arrayDict n d) sp none
  | tuple {α : Type} {ds : List (Dict α)} {sp} : Bare lex (tupleDict ds) sp none
  | punctuated {α : Type} {d : Dict α} {peekP : Stream → Bool} {parseP : M Stream Unit} {sp} :
      Bare lex (punctuatedDict d peekP parseP) sp none
  | fromStr {α : Type} {conv : Str → Except Str α} {sp} : Bare lex (fromStrDict conv) sp none
  | modPath {α : Type} {p : M Stream α} {sp} : Bare lex (modPathDict p) sp none
  | anyPath {sp} : Bare lex anyPathDict sp none
  | pmTokenStream {sp} : Bare lex pmTokenStreamDict sp none

section
variable [Env]

omit [Env] in
/-- A value or an error. -/
def valueOr {α : Type} (e : SynErr) : Option α → Res α
  | some a => .ok a
  | none => .err e

theorem LeftOut.missing {lex : Str → Except SynErr (List Tok)} {α : Type} {d : Dict α} {o : Option α}
    (h : LeftOut lex d o) (name : Str) (sp : Span) : d.missing name sp = valueOr (missingFieldError name sp) o := by
  induction h <;> first | rfl | assumption

/-- C88: a field without default that is left out has the value of the table; if the table has none, the structure is
not parsed and the message says that the field is missing. -/
theorem c88_left_out (lex : Str → Except SynErr (List Tok)) (d : Fields V) (ha : Accepted d) (ht : d.transparent = false)
    (hg : FieldsGood d.fields) (allowed : List Str) (mode : Mode) (pre : Str) (validate : Bool)
    {l bs} (h : ItemsAll (StructSeg d.fields pre) l bs) {i : Nat} {f : Field V} (hf : d.fields[i]? = some f)
    (hp : f.Plain) (hd : f.default = none) (htg : d.target = none) (hn : given i bs = none)
    {α : Type} {m : Dict α} {g : α → V} (hm : f.item = m.map g) :
    (∀ a, LeftOut lex m (some a) → ∀ vs, (namedFlat d allowed mode pre validate l).1 = .ok vs →
      ∃ v, vs[i]? = some v ∧ runTransforms f.transforms (g a) = .ok v) ∧
    (LeftOut lex m none → ∃ e, (namedFlat d allowed mode pre validate l).1 = .err e ∧
      ⟨mode.toFullSpan l, .missingField (missingName d pre f)⟩ ∈ e.toList) := by
  constructor
  · intro a hl vs hvs
    obtain ⟨-, -, hh⟩ := (c31_struct d ha ht hg allowed mode pre validate h vs).1 hvs
    obtain ⟨v, hv, hh⟩ := hh i f hf
    have hms : ∀ n sp, f.item.missing n sp = .ok (g a) := by
      intro n sp
      rw [hm]
      show (m.missing n sp).map g = _
      rw [hl.missing]
      rfl
    rcases hh with ⟨b, hb, hr⟩ | ⟨-, t, h1, -⟩
    · refine ⟨v, hv, ?_⟩
      cases hb with
      | item _ h1 => rw [hn] at h1; cases h1
      | flat h1 => have := hp.1; simp only [Field.flatParsable, Bool.and_eq_true] at h1; rw [this] at h1; simp at h1
      | container h1 => have := hp.2; simp [Field.isParsable, h1] at this
      | default _ h1 => rw [hd] at h1; cases h1
      | missing _ _ _ _ h1 => rw [hms] at h1; cases h1; exact hr
    · rw [htg] at h1; cases h1
  · intro hl
    obtain ⟨trans, -, -, h3⟩ := c35_messages d ha ht hg allowed mode pre validate h
    have hms : missingMsgs d pre (mode.toFullSpan l) bs f i =
        [⟨mode.toFullSpan l, .missingField (missingName d pre f)⟩] := by
      have : f.item.missing (missingName d pre f) (mode.toFullSpan l) =
          .err (missingFieldError (missingName d pre f) (mode.toFullSpan l)) := by
        rw [hm]
        show (m.missing _ _).map g = _
        rw [hl.missing]
        rfl
      simp only [missingMsgs, hp.1, hp.2, hn, hd, htg, this]
      rfl
    have hmem : (⟨mode.toFullSpan l, .missingField (missingName d pre f)⟩ : Msg) ∈
        eachField d.fields (missingMsgs d pre (mode.toFullSpan l) bs) :=
      (eachField_sublist (g := missingMsgs d pre (mode.toFullSpan l) bs) hf).subset (by rw [hms]; simp)
    have hall : (⟨mode.toFullSpan l, .missingField (missingName d pre f)⟩ : Msg) ∈
        itemMsgs (!d.allowUnknown && validate) allowed [] bs ++
          eachField d.fields (flatFailMsgs d.fields pre (mode.toFullSpan l) allowed l) ++
          eachField d.fields (missingMsgs d pre (mode.toFullSpan l) bs) ++ trans.flatten :=
      List.mem_append_left _ (List.mem_append_right _ hmem)
    obtain ⟨e, he, hme⟩ := (h3 _ rfl).1 (List.ne_nil_of_mem hall)
    exact ⟨e, he, hme ▸ hall⟩

theorem Bare.flagged {lex : Str → Except SynErr (List Tok)} {α : Type} {d : Dict α} {sp : Span} {o : Option α}
    (h : Bare lex d sp o) : d.flag sp = valueOr (flagDisallowedError sp) o := by
  induction h with
  | @option _ d _ o _ ih =>
    show (d.flag _).map some = _
    rw [ih]
    cases o <;> rfl
  | quoted _ ih => exact ih
  | maybeQuoted _ ih => exact ih
  | identity _ ih => exact ih
  | wrapper _ ih => exact ih
  | _ => rfl

omit [Env] in
theorem boundary_peek {rest : List Tok} (hr : Boundary rest) (sc : Span) (u : Option Span) :
    (⟨rest, sc, u⟩ : Stream).peekPunct '=' = false ∧ (⟨rest, sc, u⟩ : Stream).peekDelim .paren = false := by
  rcases hr with rfl | ⟨c, r, rfl, j, sp, rfl⟩
  · exact ⟨rfl, rfl⟩
  · exact ⟨rfl, rfl⟩

/-- At the end of the input or before a comma, a named item is a flag. -/
theorem Bare.named {lex : Str → Except SynErr (List Tok)} {α : Type} {d : Dict α} {sp : Span} {o : Option α}
    (h : Bare lex d sp o) (name : Str) {rest : List Tok} (hr : Boundary rest) (sc : Span) (u : Option Span) :
    d.named name sp ⟨rest, sc, u⟩ = (valueOr (flagDisallowedError sp) o, ⟨rest, sc, u⟩) := by
  obtain ⟨h1, h2⟩ := boundary_peek hr sc u
  have hf := h.flagged
  have hd : d.named name sp ⟨rest, sc, u⟩ = (d.flag sp, ⟨rest, sc, u⟩) ∨
      d.named name sp = parseNamedMetaItem d.parse d.inline d.flag sp ∨
      d.named name sp = parseNamedWith d.parse d.inline d.flag sp := by
    clear hf
    cases h with
    | flag => rcases hr with rfl | ⟨c, r, rfl, j, sp, rfl⟩ <;> exact .inl rfl
    | _ => first | exact .inr (.inl rfl) | exact .inr (.inr rfl)
  rcases hd with hd | hd | hd
  · rw [hd, hf]
  · simp only [hd, parseNamedMetaItem, h1, h2, hf]; rfl
  · simp only [hd, parseNamedWith, h1, h2, hf]; rfl

omit [Env] in
/-- What the item of the field reads as. -/
def bareResult {α : Type} (g : α → V) (sp : Span) : Option α → Except SynErr V
  | some a => .ok (g a)
  | none => .error (flagDisallowedError sp)

/-- C88: an item that is only the name of a field is the value of the table, or an error at the name.  (What that
makes of the structure is C31 and C35.) -/
theorem c88_bare (lex : Str → Except SynErr (List Tok)) {fields : List (Field V)} {pre : Str} {segs : List Str} {sp : Span}
    {v rest : List Tok} (hk : KeyToks segs sp v []) (hr : Boundary rest) {f : Field V} {i : Nat}
    (ho : Owns fields pre (keyString segs) f i) {α : Type} {m : Dict α} {g : α → V} (hm : f.item = m.map g)
    {o : Option α} (hb : Bare lex m sp o) (sc : Span) :
    StructSeg fields pre v rest sc (.field i (f.idents.headD []) sp (bareResult g sp o)) := by
  refine .field hk ho ?_
  have hcall : ∀ u, f.item.named (f.idents.headD []) sp ⟨rest, sc, u⟩ =
      ((valueOr (flagDisallowedError sp) o).map g, ⟨rest, sc, u⟩) := by
    intro u
    rw [hm]
    show (_, _) = _
    simp only [hb.named _ hr]
  cases o with
  | some a => exact fun u => ⟨u, hcall u⟩
  | none => exact fun u => ⟨[], u, by simp [NoComma], hcall u⟩

/-- C88: with `SpannedValue` the value is that of the type inside; its span starts at the name. -/
theorem c88_bare_spanned (lex : Str → Except SynErr (List Tok)) {α : Type} {d : Dict α} {sp : Span} {a : α}
    (h : Bare lex d sp (some a)) (name : Str) {rest : List Tok} (hr : Boundary rest) (sc : Span) (u : Option Span) :
    ∃ end_, (spannedDict d).named name sp ⟨rest, sc, u⟩ =
      (.ok ⟨a, (Env.join end_ sp).getD sp⟩, ⟨rest, sc, u⟩) :=
  ⟨_, by simp only [spannedDict, h.named name hr]; rfl⟩

omit [Env] in
/-- C88: with `with::syn` and `with::syn_quoted`, only the name stands for the empty input of the parser: the
value is what it makes of nothing, and if it fails, its first message is moved to the name. -/
theorem c88_bare_syn (lex : Str → Except SynErr (List Tok)) {α : Type} (p : M Stream α) {d : Dict α}
    (hd : d = withSynDict p ∨ d = synQuotedDict lex p) (name : Str) (sp : Span) {rest : List Tok}
    (hr : Boundary rest) (sc : Span) (u : Option Span) :
    (∀ a sc', p ⟨[], callSite, none⟩ = (.ok a, ⟨[], sc', none⟩) →
      d.named name sp ⟨rest, sc, u⟩ = (.ok a, ⟨rest, sc, u⟩)) ∧
    (∀ m ms s, p ⟨[], callSite, none⟩ = (.err ⟨m, ms⟩, s) →
      d.named name sp ⟨rest, sc, u⟩ = (.err ⟨{ m with span := sp }, ms⟩, ⟨rest, sc, u⟩)) := by
  obtain ⟨h1, h2⟩ := boundary_peek hr sc u
  have hn : d.named name sp ⟨rest, sc, u⟩ = (parseEmpty sp p, ⟨rest, sc, u⟩) := by
    rcases hd with rfl | rfl
    · simp only [withSynDict, withModule, parseNamedWith, h1, h2]; rfl
    · simp only [synQuotedDict, withModule, parseNamedWith, h1, h2]; rfl
  rw [hn]
  constructor
  · intro a sc' h
    simp [parseEmpty, parse2, h]
  · intro m ms s h
    simp [parseEmpty, parse2, h, respanFirst]

/-! ## Concrete cases -/

/-- `struct S { #[deluxe(with = from_str_default)] a: A, #[deluxe(with = from_str)] b: A }` where values of `A` are
characters, the default is `x`. -/
def leftOutDemo : Fields Char where
  fields := [plainField "a".toList ((fromStrDefaultDict (fun s => .ok (s.headD 'y')) 'x').map id),
    plainField "b".toList ((fromStrDict fun s => .ok (s.headD 'y')).map id)]
  target := none
  transparent := false
  allowUnknown := false
  obj := none
  attrName := none

/-- `b = "z"`: the other field is left out. -/
example : (namedFlat leftOutDemo (Field.fieldNames leftOutDemo.fields) (.named 0) [] true
    [⟨[.ident "b".toList 1, .punct '=' false 2, .lit (.str "z".toList) 3], 9, none⟩]).1 = .ok ['x', 'z'] := rfl

/-- `a`: the first is the default, the other is missing. -/
example : (namedFlat leftOutDemo (Field.fieldNames leftOutDemo.fields) (.named 0) [] true
    [⟨[.ident "a".toList 1], 9, none⟩]).1 = .err (.new 0 (.missingField "`b`".toList)) := rfl

/-- `b`: not allowed without value. -/
example : ∃ e, (namedFlat leftOutDemo (Field.fieldNames leftOutDemo.fields) (.named 0) [] true
    [⟨[.ident "b".toList 1], 9, none⟩]).1 = .err e ∧ ⟨1, .flagDisallowed⟩ ∈ e.toList := ⟨_, rfl, List.mem_cons_self⟩

/-- The conditions of `c88_left_out` hold for the field `a` and the items of `b = "z"`. -/
example : Accepted leftOutDemo ∧ FieldsGood leftOutDemo.fields ∧
    ItemsAll (StructSeg leftOutDemo.fields [])
      [⟨[.ident "b".toList 1, .punct '=' false 2, .lit (.str "z".toList) 3], 9, none⟩]
      [.field 1 "b".toList 1 (.ok 'z')] ∧
    given 0 [SItem.field 1 "b".toList 1 (.ok 'z')] = none ∧
    LeftOut (fun _ => .ok []) (fromStrDefaultDict (fun s => .ok (s.headD 'y')) 'x') (some 'x') := by
  have hgood : ∀ f ∈ leftOutDemo.fields, f.item.Good ∧ f.Plain := by
    intro f hf
    simp only [leftOutDemo, List.mem_cons, List.not_mem_nil, or_false] at hf
    rcases hf with rfl | rfl
    · exact ⟨Dict.map_good _ (withModule_good (fromStrParse_good _) (parseFirst_good (fromStrParse_good _))
        (fun _ => by simp) (fun _ _ => by simp)), rfl, rfl⟩
    · exact ⟨Dict.map_good _ (fromStrDict_good _), rfl, rfl⟩
  refine ⟨⟨fun f hf hp => ?_, fun t h => by cases h⟩, ⟨fun f hf _ => (hgood f hf).1.named,
    fun f hf => (hgood f hf).1.missing, fun f hf hp => ?_⟩, ?_, rfl, .fromStrDefault _ _⟩
  · rw [(hgood f hf).2.2] at hp; cases hp
  · have := (hgood f hf).2.1
    simp only [Field.flatParsable, this] at hp
    simp at hp
  · refine .cons (bs := [_]) (.last (by simp) ?_) .nil
    exact .field (segs := ["b".toList]) (f := plainField "b".toList ((fromStrDict fun s => .ok (s.headD 'y')).map id))
      (.mk (pt := [.ident "b".toList 1]) (.plain (.one _ _)) (by simp [StartsColon2]))
      ((owner_some _ _ _ _ _).1 rfl) (fun u => ⟨u, rfl⟩)

end
end Deluxe
