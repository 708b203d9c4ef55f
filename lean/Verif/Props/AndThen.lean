import Verif.Props.Variants
import Verif.Props.Enums
import Verif.Props.Optional
/-!
# C80: the `and_then` functions and the default of a whole structure or enum

macros/types/struct.rs:182-199, macros/types/variant.rs:451-466, macros/parse_meta_item.rs:376-383.
-/
namespace Deluxe

/-! ## Statement -/

/-- What a list of functions makes of a value: they run from left to right, each on what the one before gave; the first
failure ends it. -/
inductive Chain {α : Type} : List (α → Except SynErr α) → α → Except SynErr α → Prop
  | done (v) : Chain [] v (.ok v)
  | step {f fs v v' r} : f v = .ok v' → Chain fs v' r → Chain (f :: fs) v r
  | fail {f fs v e} : f v = .error e → Chain (f :: fs) v (.error e)

/-- The texts of an error, without the places. -/
def SynErr.texts (e : SynErr) : List Text := e.toList.map (·.text)

/-- `full` is `plain` followed by the functions: it succeeds exactly if `plain` and the functions do, with what the
functions make of the value and nothing else read; a failing function is reported; nothing that was an error before is
accepted. -/
structure Followed {σ α : Type} (fs : List (α → Except SynErr α)) (plain full : Res α × σ) : Prop where
  ok : ∀ v s', full = (.ok v, s') ↔ ∃ u, plain = (.ok u, s') ∧ Chain fs u (.ok v)
  fails : ∀ u s' e, plain = (.ok u, s') → Chain fs u (.error e) → ∃ e' s'', full = (.err e', s'') ∧ e'.texts = e.texts
  err : ∀ e s', plain = (.err e, s') → ∃ e' s'', full = (.err e', s'')
  panic : full.1 = .panic → plain.1 = .panic

/-! ## Lemmas -/

section
variable {α : Type}

theorem Chain.total (fs : List (α → Except SynErr α)) (v : α) : ∃ r, Chain fs v r := by
  induction fs generalizing v with
  | nil => exact ⟨_, .done v⟩
  | cons f fs ih =>
    cases h : f v with
    | error e => exact ⟨_, .fail h⟩
    | ok v' =>
      obtain ⟨r, hr⟩ := ih v'
      exact ⟨r, .step h hr⟩

theorem Chain.unique {fs : List (α → Except SynErr α)} {v : α} {r r'} (h : Chain fs v r) (h' : Chain fs v r') : r = r' := by
  induction h with
  | done => cases h'; rfl
  | step h1 _ ih =>
    cases h' with
    | step h2 h3 => rw [h1] at h2; cases h2; exact ih h3
    | fail h2 => rw [h1] at h2; cases h2
  | fail h1 =>
    cases h' with
    | step h2 _ => rw [h1] at h2; cases h2
    | fail h2 => rw [h1] at h2; cases h2; rfl

theorem Chain.fold {fs : List (α → Except SynErr α)} {v : α} {r} (h : Chain fs v r) :
    fs.foldlM (fun v f => f v) v = r := by
  induction h with
  | done => rfl
  | step h1 _ ih =>
    rw [List.foldlM_cons, h1]
    exact ih
  | fail h1 =>
    rw [List.foldlM_cons, h1]
    rfl

/-- The outcome of the functions as a result. -/
def chainRes (r : Except SynErr α) : Res α :=
  match r with
  | .ok v => .ok v
  | .error e => .err e

theorem Chain.run {fs : List (α → Except SynErr α)} {v : α} {r} (h : Chain fs v r) :
    runAndThens fs (.ok v) = chainRes r := by
  simp only [runAndThens, h.fold]
  cases r <;> rfl

/-- In a state: the functions run at the end. -/
theorem Followed.mapRes {σ : Type} (fs : List (α → Except SynErr α)) (m : M σ α) (s : σ) :
    Followed fs (m s) (m.mapRes (runAndThens fs) s) := by
  simp only [M.mapRes]
  rcases m s with ⟨u | e | _, s1⟩
  · obtain ⟨r, hr⟩ := Chain.total fs u
    simp only [hr.run]
    refine ⟨fun v s' => ⟨fun h => ?_, ?_⟩, ?_, nofun, ?_⟩
    · cases r with
      | ok v' => cases h; exact ⟨u, rfl, hr⟩
      | error e => cases h
    · rintro ⟨_, h1, h2⟩
      cases h1
      cases hr.unique h2
      rfl
    · intro _ _ e h1 h2
      cases h1
      cases hr.unique h2
      exact ⟨e, _, rfl, rfl⟩
    · cases r <;> simp [chainRes]
  · refine ⟨fun v s' => ⟨nofun, ?_⟩, nofun, fun _ _ _ => ⟨_, _, rfl⟩, ?_⟩
    · rintro ⟨_, h, _⟩
      cases h
    · simp [runAndThens]
  · refine ⟨fun v s' => ⟨nofun, ?_⟩, nofun, nofun, ?_⟩
    · rintro ⟨_, h, _⟩
      cases h
    · simp [runAndThens]

/-- Something that is done with every result after it, and does not change errors, keeps `Followed`. -/
theorem Followed.bind {σ : Type} {fs : List (α → Except SynErr α)} {m m' : M σ α} (k : M σ Unit) (s : σ)
    (h : Followed fs (m s) (m' s)) :
    Followed fs ((do let r ← m; k; pure r : M σ α) s) ((do let r ← m'; k; pure r : M σ α) s) := by
  have key : ∀ (m : M σ α), (do let r ← m; k; pure r : M σ α) s =
      match m s with
      | (.ok u, s1) =>
        match k s1 with
        | (.ok (), s2) => (.ok u, s2)
        | (.err e, s2) => (.err e, s2)
        | (.panic, s2) => (.panic, s2)
      | (.err e, s1) => (.err e, s1)
      | (.panic, s1) => (.panic, s1) := by
    intro m
    show M.bind _ _ _ = _
    simp only [M.bind]
    rcases m s with ⟨_ | _ | _, s1⟩
    · show M.bind _ _ _ = _
      simp only [M.bind]
      rcases k s1 with ⟨_ | _ | _, s2⟩ <;> rfl
    · rfl
    · rfl
  rw [key m, key m']
  obtain ⟨h1, h2, h3, h4⟩ := h
  rcases hm : m s with ⟨u | e | _, s1⟩
  · obtain ⟨r, hr⟩ := Chain.total fs u
    cases r with
    | ok v =>
      have e' : m' s = (.ok v, s1) := (h1 v s1).2 ⟨u, hm, hr⟩
      rw [e']
      simp only
      rcases k s1 with ⟨_ | e | _, s2⟩
      · refine ⟨fun v' s' => ⟨fun h => ?_, ?_⟩, ?_, nofun, by simp⟩
        · cases h; exact ⟨u, rfl, hr⟩
        · rintro ⟨_, h, h'⟩; cases h; cases hr.unique h'; rfl
        · intro _ _ e h h'; cases h; cases hr.unique h'
      · exact ⟨fun _ _ => ⟨nofun, by rintro ⟨_, h, _⟩; cases h⟩, nofun, fun _ _ _ => ⟨_, _, rfl⟩, by simp⟩
      · exact ⟨fun _ _ => ⟨nofun, by rintro ⟨_, h, _⟩; cases h⟩, nofun, nofun, by simp⟩
    | error e =>
      obtain ⟨e', s'', he, ht⟩ := h2 u s1 e hm hr
      rw [he]
      simp only
      generalize hk : k s1 = y
      obtain ⟨y, s2⟩ := y
      refine ⟨fun _ _ => ⟨nofun, ?_⟩, ?_, fun _ _ _ => ⟨_, _, rfl⟩, nofun⟩
      · rintro ⟨u', h, h'⟩
        cases y <;> cases h
        cases hr.unique h'
      · intro u' _ e2 h h'
        cases y <;> cases h
        cases hr.unique h'
        exact ⟨_, _, rfl, ht⟩
  · obtain ⟨e', s'', he⟩ := h3 e s1 hm
    rw [he]
    exact ⟨fun _ _ => ⟨nofun, by rintro ⟨_, h, _⟩; cases h⟩, nofun, fun _ _ _ => ⟨_, _, rfl⟩, nofun⟩
  · refine ⟨fun v s' => ⟨fun h => ?_, by rintro ⟨_, h, _⟩; cases h⟩, nofun, nofun, fun _ => rfl⟩
    rcases hm' : m' s with ⟨v' | _ | _, s2⟩ <;> rw [hm'] at h
    · obtain ⟨u, h5, -⟩ := (h1 v' s2).1 hm'
      rw [hm] at h5
      cases h5
    · cases h
    · cases h

/-- A change of the state afterwards. -/
theorem Followed.state {σ τ : Type} {fs : List (α → Except SynErr α)} {x y : Res α × σ} (g : σ → τ)
    (h : Followed fs x y) : Followed fs (x.1, g x.2) (y.1, g y.2) := by
  obtain ⟨h1, h2, h3, h4⟩ := h
  obtain ⟨x, s⟩ := x
  obtain ⟨y, t⟩ := y
  refine ⟨fun v s' => ⟨fun h => ?_, ?_⟩, ?_, ?_, h4⟩
  · cases h
    obtain ⟨u, h5, h6⟩ := (h1 v t).1 rfl
    cases h5
    exact ⟨u, rfl, h6⟩
  · rintro ⟨u, h5, h6⟩
    cases h5
    have := (h1 v s).2 ⟨u, rfl, h6⟩
    cases this
    rfl
  · intro u s' e h5 h6
    cases h5
    obtain ⟨e', s'', h7, h8⟩ := h2 u s e rfl h6
    cases h7
    exact ⟨e', _, rfl, h8⟩
  · intro e s' h5
    cases h5
    obtain ⟨e', s'', h7⟩ := h3 e s rfl
    cases h7
    exact ⟨e', _, rfl⟩

theorem Followed.single {fs : List (α → Except SynErr α)} {m m' : M (List Stream) α} (s : Stream)
    (h : Followed fs (m [s]) (m' [s])) : Followed fs (single m s) (single m' s) :=
  h.state fun l => l.headD s

theorem Followed.delimited {fs : List (α → Except SynErr α)} {m m' : M Stream α} (dl : Delim)
    (h : ∀ s, Followed fs (m s) (m' s)) (s : Stream) :
    Followed fs (parseDelimitedWith dl m s) (parseDelimitedWith dl m' s) := by
  simp only [parseDelimitedWith, withContent]
  cases enter dl s with
  | error e => exact ⟨fun _ _ => ⟨nofun, by rintro ⟨_, h, _⟩; cases h⟩, nofun, fun _ _ _ => ⟨_, _, rfl⟩, nofun⟩
  | ok x => exact (Followed.bind parseEof x.1 (h x.1)).state fun c => x.2.dropChild c

/-- Results without a state. -/
abbrev FollowedRes (fs : List (α → Except SynErr α)) (plain full : Res α) : Prop := Followed fs (plain, ()) (full, ())

theorem Followed.res {σ : Type} {fs : List (α → Except SynErr α)} {x y : Res α × σ} (h : Followed fs x y) :
    FollowedRes fs x.1 y.1 := h.state fun _ => ()

theorem Followed.run (fs : List (α → Except SynErr α)) (r : Res α) : FollowedRes fs r (runAndThens fs r) :=
  Followed.mapRes fs (fun _ => (r, ())) ()

theorem Followed.refl_err {σ : Type} (fs : List (α → Except SynErr α)) (e : SynErr) (s : σ) :
    Followed fs (.err e, s) (.err e, s) :=
  ⟨fun _ _ => ⟨nofun, by rintro ⟨_, h, _⟩; cases h⟩, nofun, fun _ _ _ => ⟨_, _, rfl⟩, nofun⟩

theorem texts_respan (sp : Span) (e : SynErr) : (respanFirst sp e).texts = e.texts := rfl

theorem Followed.empty {fs : List (α → Except SynErr α)} {m m' : M Stream α} (sp : Span)
    (h : ∀ s, Followed fs (m s) (m' s)) : FollowedRes fs (parseEmpty sp m) (parseEmpty sp m') := by
  have h := h ⟨[], callSite, none⟩
  simp only [parseEmpty, parse2]
  obtain ⟨h1, h2, h3, h4⟩ := h
  rcases hm : m ⟨[], callSite, none⟩ with ⟨u | e | _, s1⟩
  · obtain ⟨r, hr⟩ := Chain.total fs u
    cases r with
    | ok v =>
      rw [(h1 v s1).2 ⟨u, hm, hr⟩]
      simp only
      cases s1.unexp with
      | some sp' => exact .refl_err _ _ _
      | none =>
        cases s1.toks with
        | cons t _ => exact .refl_err _ _ _
        | nil =>
          refine ⟨fun v' s' => ⟨fun h => ?_, ?_⟩, ?_, nofun, nofun⟩
          · cases h; exact ⟨u, rfl, hr⟩
          · rintro ⟨_, h, h'⟩; cases h; cases hr.unique h'; rfl
          · intro _ _ e h h'; cases h; cases hr.unique h'
    | error e =>
      obtain ⟨e', s'', he, ht⟩ := h2 u s1 e hm hr
      rw [he]
      simp only
      cases s1.unexp with
      | some sp' => exact ⟨fun _ _ => ⟨nofun, by rintro ⟨_, h, _⟩; cases h⟩, nofun, fun _ _ _ => ⟨_, _, rfl⟩, nofun⟩
      | none =>
        cases s1.toks with
        | cons t _ => exact ⟨fun _ _ => ⟨nofun, by rintro ⟨_, h, _⟩; cases h⟩, nofun, fun _ _ _ => ⟨_, _, rfl⟩, nofun⟩
        | nil =>
          refine ⟨fun v' s' => ⟨nofun, ?_⟩, ?_, nofun, nofun⟩
          · rintro ⟨_, h, h'⟩; cases h; cases hr.unique h'
          · intro _ _ e h h'; cases h; cases hr.unique h'; exact ⟨_, _, rfl, ht⟩
  · obtain ⟨e', s'', he⟩ := h3 e s1 hm
    rw [he]
    exact ⟨fun _ _ => ⟨nofun, by rintro ⟨_, h, _⟩; cases h⟩, nofun, fun _ _ _ => ⟨_, _, rfl⟩, nofun⟩
  · refine ⟨fun v s' => ⟨fun h => ?_, by rintro ⟨_, h, _⟩; cases h⟩, nofun, nofun, fun _ => rfl⟩
    rcases hm' : m' ⟨[], callSite, none⟩ with ⟨v' | _ | _, s2⟩ <;> rw [hm'] at h
    · obtain ⟨u, h5, -⟩ := (h1 v' s2).1 hm'
      rw [hm] at h5
      cases h5
    · cases h
    · cases h

/-- All the ways a value is written, from the three that a type implements. -/
theorem Followed.named {fs : List (α → Except SynErr α)} {p p' : Mode → M Stream α} {i i' : Mode → M (List Stream) α}
    {g g' : Span → Res α} (hp : ∀ m s, Followed fs (p m s) (p' m s)) (hi : ∀ m l, Followed fs (i m l) (i' m l))
    (hg : ∀ sp, FollowedRes fs (g sp) (g' sp)) (sp : Span) (s : Stream) :
    Followed fs (parseNamedMetaItem p i g sp s) (parseNamedMetaItem p' i' g' sp s) := by
  simp only [parseNamedMetaItem]
  split
  · show Followed fs (M.bind _ _ _) (M.bind _ _ _)
    simp only [M.bind]
    rcases parsePunct '=' s with ⟨_ | e | _, s1⟩
    · exact hp _ _
    · exact .refl_err _ _ _
    · exact ⟨fun _ _ => ⟨nofun, by rintro ⟨_, h, _⟩; cases h⟩, nofun, nofun, fun _ => rfl⟩
  · split
    · exact Followed.delimited .paren (fun s => (hi _ [s]).single s) s
    · exact (hg sp).state fun _ => s

end

/-- Every way to write a value. -/
structure DictFollowed {α : Type} (fs : List (α → Except SynErr α)) (plain full : Dict α) : Prop where
  value : ∀ mode s, Followed fs (plain.parse mode s) (full.parse mode s)
  inline : ∀ mode l, Followed fs (plain.inline mode l) (full.inline mode l)
  flag : ∀ sp, FollowedRes fs (plain.flag sp) (full.flag sp)
  named : ∀ name sp s, Followed fs (plain.named name sp s) (full.named name sp s)

theorem DictFollowed.mk' {α : Type} {fs : List (α → Except SynErr α)} {p p' : Mode → M Stream α}
    {i i' : Mode → M (List Stream) α} {g g' : Span → Res α} {ms ms' : Str → Span → Res α}
    (hp : ∀ m s, Followed fs (p m s) (p' m s)) (hi : ∀ m l, Followed fs (i m l) (i' m l))
    (hg : ∀ sp, FollowedRes fs (g sp) (g' sp)) :
    DictFollowed fs (Dict.mk' p i g ms) (Dict.mk' p' i' g' ms') :=
  ⟨hp, hi, hg, fun _ sp s => Followed.named hp hi hg sp s⟩

section
variable {V : Type} [Env]

/-- The structure without its `and_then` functions. -/
def StructDef.plain (d : StructDef V) : StructDef V := { d with andThens := [] }

theorem flatNamed_followed (d : StructDef V) (mode : Mode) (pre : Str) (validate : Bool) (l : List Stream) :
    Followed d.andThens (d.plain.flatNamed.parse mode pre validate l) (d.flatNamed.parse mode pre validate l) := by
  have : d.plain.flatNamed.parse mode pre validate =
      namedFlat d.data (Field.fieldNames d.fields) mode pre validate := mapRes_nil _
  rw [this]
  exact Followed.mapRes _ _ _

theorem flatUnnamed_followed (d : StructDef V) (mode : Mode) (index : Nat) (l : List Stream) :
    Followed d.andThens (d.plain.flatUnnamed.parse mode index l) (d.flatUnnamed.parse mode index l) := by
  simp only [StructDef.flatUnnamed]
  rw [show d.plain.shape = d.shape from rfl]
  cases d.shape with
  | named => exact flatNamed_followed d _ _ _ _
  | unnamed | unit =>
    simp only
    rw [show d.plain.andThens = [] from rfl, mapRes_nil]
    exact Followed.mapRes _ _ _

omit [Env] in
theorem transparentPost_plain (d : StructDef V) (k : Nat) (r : Res V) :
    transparentPost d k r = runAndThens d.andThens (transparentPost d.plain k r) := by
  cases r with
  | ok v =>
    simp only [transparentPost]
    rw [show d.plain.andThens = [] from rfl, runAndThens_nil]
    rfl
  | err e => rfl
  | panic => rfl

omit [Env] in
theorem mapRes_transparent {σ : Type} (d : StructDef V) (k : Nat) (m : M σ V) (s : σ) :
    Followed d.andThens (m.mapRes (transparentPost d.plain k) s) (m.mapRes (transparentPost d k) s) := by
  have : m.mapRes (transparentPost d k) = (m.mapRes (transparentPost d.plain k)).mapRes (runAndThens d.andThens) := by
    funext s
    simp only [M.mapRes, transparentPost_plain d k]
  rw [this]
  exact Followed.mapRes _ _ _

/-- C80: a derived structure of any shape, in every way it can be written, is the one without `and_then` functions
followed by these functions. -/
theorem c80_struct (d : StructDef V) : DictFollowed d.andThens d.plain.dict d.dict := by
  unfold StructDef.dict
  rw [show d.plain.isTransparent = d.isTransparent from rfl, show d.plain.fields = d.fields from rfl,
    show d.plain.shape = d.shape from rfl]
  split
  · rename_i ht
    split
    · rename_i f k _
      exact .mk' (fun m s => mapRes_transparent d k _ s) (fun m l => mapRes_transparent d k _ l) (fun sp => by
        rw [transparentPost_plain d k]
        exact Followed.run _ _)
    · rename_i hn
      rw [List.find?_eq_none] at hn
      have : d.fields.filter (fun f => f.isParsable && !f.isFlat) = [] := by
        rw [List.filter_eq_nil_iff]
        intro f hf
        obtain ⟨i, hi⟩ := List.getElem?_of_mem hf
        exact hn (f, i) (List.mem_zipIdx_iff_getElem?.2 hi)
      simp [StructDef.isTransparent, this] at ht
  · cases d.shape with
    | named =>
      exact .mk' (fun m s => Followed.delimited _ (fun s => (flatNamed_followed d _ _ _ _).single s) s)
        (fun m l => flatNamed_followed d _ _ _ _)
        (fun sp => Followed.empty sp (fun s => (flatNamed_followed d _ _ _ _).single s))
    | unnamed =>
      refine .mk' (fun m s => Followed.delimited _ (fun s => (flatUnnamed_followed d _ _ _).single s) s)
        (fun m l => flatUnnamed_followed d _ _ _) (fun sp => ?_)
      rw [show d.plain.default = d.default from rfl]
      split
      · exact Followed.empty sp (fun s => (flatUnnamed_followed d _ _ _).single s)
      · exact .refl_err _ _ _
    | unit =>
      have h : ∀ l : List Stream, Followed d.andThens (runAndThens d.plain.andThens (.ok []), l) (runAndThens d.andThens (.ok []), l) :=
        fun l => Followed.mapRes d.andThens (fun l => (.ok [], l)) l
      exact .mk' (fun m s => Followed.delimited _ (fun s => (h _).single s) s) (fun m l => h l) (fun sp => (h []).res)

/-- C80, flattened into another structure: the same. -/
theorem c80_struct_flat (d : StructDef V) (mode : Mode) (pre : Str) (validate : Bool) (index : Nat) (l : List Stream) :
    Followed d.andThens (d.plain.flatNamed.parse mode pre validate l) (d.flatNamed.parse mode pre validate l) ∧
    Followed d.andThens (d.plain.flatUnnamed.parse mode index l) (d.flatUnnamed.parse mode index l) :=
  ⟨flatNamed_followed d mode pre validate l, flatUnnamed_followed d mode index l⟩

/-! ## Enums -/

/-- The enum without its `and_then` functions. -/
def EnumDef.plain (e : EnumDef V) : EnumDef V := { e with andThens := [] }

omit [Env] in
theorem Chain.thens {fs : List (EnumVal V → Except SynErr (EnumVal V))} {v r} (h : Chain fs v r) : runThens fs v = r := by
  induction h with
  | done => rfl
  | step h1 _ ih => simp only [runThens, h1]; exact ih
  | fail h1 => simp only [runThens, h1]

omit [Env] in
theorem enumAndThens_of_none (fs : List (EnumVal V → Except SynErr (EnumVal V))) (errs : Errors) :
    enumAndThens fs none errs = (none, errs) := by
  unfold enumAndThens
  induction fs with
  | nil => rfl
  | cons f fs ih => exact ih

omit [Env] in
theorem conclude_followed (e : EnumDef V) (value : FieldStatus (EnumVal V)) (errs : Errors) :
    FollowedRes e.andThens (conclude e.plain value errs) (conclude e value errs) ∧
    ∀ x, conclude e.plain value errs = .err x → ∃ x', conclude e value errs = .err x' ∧ x.toList <+: x'.toList := by
  unfold conclude
  rw [show e.plain.andThens = [] from rfl]
  cases hv : value.intoOption with
  | none =>
    simp only [enumAndThens_of_none]
    rcases check_cases errs with ⟨h1, h2⟩ | ⟨x, h1, h2⟩
    · simp only [h2]
      exact ⟨⟨fun _ _ => ⟨nofun, by rintro ⟨_, h, _⟩; cases h⟩, nofun, nofun, fun _ => rfl⟩, nofun⟩
    · simp only [h2]
      exact ⟨.refl_err _ _ _, fun y hy => ⟨y, hy, List.prefix_rfl⟩⟩
  | some v =>
    obtain ⟨r, hr⟩ := Chain.total e.andThens v
    simp only [enumAndThens_eq, hr.thens, runThens]
    cases r with
    | ok v' =>
      rcases check_cases errs with ⟨h1, h2⟩ | ⟨x, h1, h2⟩
      · simp only [h2]
        refine ⟨⟨fun _ _ => ⟨fun h => ?_, ?_⟩, ?_, nofun, nofun⟩, nofun⟩
        · cases h; exact ⟨v, rfl, hr⟩
        · rintro ⟨_, h, h'⟩; cases h; cases hr.unique h'; rfl
        · intro _ _ x h h'; cases h; cases hr.unique h'
      · simp only [h2]
        exact ⟨.refl_err _ _ _, fun y hy => ⟨y, hy, List.prefix_rfl⟩⟩
    | error x =>
      rcases check_cases (errs.pushSyn x) with ⟨h3, h4⟩ | ⟨y, h3, h4⟩
      · simp [SynErr.toList] at h3
      simp only [h4]
      rw [Errors.toList_pushSyn] at h3
      rcases check_cases errs with ⟨h1, h2⟩ | ⟨z, h1, h2⟩
      · simp only [h2]
        rw [h1, List.nil_append] at h3
        refine ⟨⟨fun _ _ => ⟨nofun, ?_⟩, ?_, nofun, nofun⟩, nofun⟩
        · rintro ⟨_, h, h'⟩; cases h; cases hr.unique h'
        · intro _ _ x' h h'
          cases h
          cases hr.unique h'
          exact ⟨y, _, rfl, by rw [SynErr.texts, SynErr.texts, h3]⟩
      · simp only [h2]
        refine ⟨⟨fun _ _ => ⟨nofun, by rintro ⟨_, h, _⟩; cases h⟩, nofun, fun _ _ _ => ⟨_, _, rfl⟩, nofun⟩, ?_⟩
        intro x' hx'
        cases hx'
        exact ⟨y, rfl, ⟨x.toList, by rw [← h1, h3]⟩⟩

theorem enumFlat_followed (e : EnumDef V) (site : Site V) (mode : Mode) (pre : Str) (validate : Bool) (l : List Stream) :
    Followed e.andThens (enumFlat e.plain site mode pre validate l) (enumFlat e site mode pre validate l) ∧
    ∀ x s', enumFlat e.plain site mode pre validate l = (.err x, s') →
      ∃ x', enumFlat e site mode pre validate l = (.err x', s') ∧ x.toList <+: x'.toList := by
  simp only [enumFlat]
  rw [show enumStep e.plain site pre = enumStep e site pre from rfl, show e.plain.anyFlat = e.anyFlat from rfl,
    show e.plain.unknownOk = e.unknownOk from rfl]
  generalize parseStruct (enumStep e site pre) _ = x
  obtain ⟨r, acc, l1⟩ := x
  have key : ∀ errs l1, 
      let f := fun (e : EnumDef V) => (match pick e site pre (mode.toFullSpan l) validate acc.val errs l1 with
        | (.ok (value, errs), l2) => (conclude e value errs, skipAll l2)
        | (.err x, l2) => (.err x, l2)
        | (.panic, l2) => (.panic, l2) : Res (EnumVal V) × List Stream)
      Followed e.andThens (f e.plain) (f e) ∧ ∀ x s', f e.plain = (.err x, s') → 
        ∃ x', f e = (.err x', s') ∧ x.toList <+: x'.toList := by
    intro errs l1
    simp only
    rw [show pick e.plain site pre = pick e site pre from rfl]
    rcases pick e site pre (mode.toFullSpan l) validate acc.val errs l1 with ⟨⟨value, errs⟩ | x | _, l2⟩
    · simp only
      obtain ⟨h1, h2⟩ := conclude_followed e value errs
      refine ⟨h1.state (fun _ => skipAll l2), fun x s' h => ?_⟩
      cases h3 : conclude e.plain value errs with
      | err y =>
        rw [h3] at h
        cases h
        obtain ⟨x', h4, h5⟩ := h2 _ h3
        exact ⟨x', by rw [h4], h5⟩
      | ok _ => rw [h3] at h; cases h
      | panic => rw [h3] at h; cases h
    · exact ⟨.refl_err _ _ _, fun x s' h => by cases h; exact ⟨_, rfl, List.prefix_rfl⟩⟩
    · exact ⟨⟨fun _ _ => ⟨nofun, by rintro ⟨_, h, _⟩; cases h⟩, nofun, nofun, fun _ => rfl⟩, nofun⟩
  cases r with
  | ok u => exact key _ _
  | err x => exact key _ _
  | panic => exact ⟨⟨fun _ _ => ⟨nofun, by rintro ⟨_, h, _⟩; cases h⟩, nofun, nofun, fun _ => rfl⟩, nofun⟩

/-- C80: the same for a derived enum. -/
theorem c80_enum (e : EnumDef V) : DictFollowed e.andThens e.plain.dict e.dict :=
  .mk' (fun _ s => Followed.delimited _ (fun s => (enumFlat_followed e _ _ _ _ [s]).1.single s) s)
    (fun _ l => (enumFlat_followed e _ _ _ _ l).1)
    (fun sp => Followed.empty sp (fun s => (enumFlat_followed e _ _ _ _ [s]).1.single s))

theorem struct_inline (d : StructDef V) (mode : Mode) (l : List Stream) :
    d.dict.inline mode l = ((d.plain.dict.inline mode).mapRes (runAndThens d.andThens)) l := by
  unfold StructDef.dict
  rw [show d.plain.isTransparent = d.isTransparent from rfl, show d.plain.fields = d.fields from rfl,
    show d.plain.shape = d.shape from rfl]
  split
  · rename_i ht
    split
    · rename_i f k _
      show M.mapRes _ _ _ = M.mapRes _ (M.mapRes _ _) _
      simp only [M.mapRes, transparentPost_plain d k]
    · rename_i hn
      rw [List.find?_eq_none] at hn
      have : d.fields.filter (fun f => f.isParsable && !f.isFlat) = [] := by
        rw [List.filter_eq_nil_iff]
        intro f hf
        obtain ⟨i, hi⟩ := List.getElem?_of_mem hf
        exact hn (f, i) (List.mem_zipIdx_iff_getElem?.2 hi)
      simp [StructDef.isTransparent, this] at ht
  · have nd : ∀ pre validate, d.plain.flatNamed.parse mode pre validate =
        namedFlat d.data (Field.fieldNames d.fields) mode pre validate := fun _ _ => mapRes_nil _
    cases hs : d.shape with
    | named =>
      show d.flatNamed.parse mode [] _ l = M.mapRes _ (d.plain.flatNamed.parse mode [] _) l
      rw [nd]
      rfl
    | unnamed =>
      show d.flatUnnamed.parse mode 0 l = M.mapRes _ (d.plain.flatUnnamed.parse mode 0) l
      have h1 : d.plain.flatUnnamed.parse mode 0 = unnamedFlat d.data mode 0 := by
        simp only [StructDef.flatUnnamed, show d.plain.shape = .unnamed from hs]
        exact mapRes_nil _
      rw [h1]
      simp only [StructDef.flatUnnamed, hs]
    | unit => rfl

/-- C80: the functions add messages and remove none: in the inline form an error without them is still reported with
them, and first.  (For a structure they are not even run.) -/
theorem c80_errors_kept (d : StructDef V) (e : EnumDef V) (mode : Mode) (l s' : List Stream) (x : SynErr) :
    (d.plain.dict.inline mode l = (.err x, s') → d.dict.inline mode l = (.err x, s')) ∧
    (e.plain.dict.inline mode l = (.err x, s') →
      ∃ x', e.dict.inline mode l = (.err x', s') ∧ x.toList <+: x'.toList) := by
  refine ⟨fun h => ?_, (enumFlat_followed e .meta mode [] _ l).2 x s'⟩
  rw [struct_inline, M.mapRes, h]
  rfl

/-! ## The default of the whole value -/

/-- C80: a field whose type is a derived structure or enum with a `default`, and that is not given, is that default: it
is not an error.  The `and_then` functions of the type are not run on it, only the transforms of the field. -/
theorem c80_default {W : Type} (D : Fields W) (allowed : List Str) (pre : Str) (span : Span) (l : List Stream)
    (bs : List (SItem W)) (f : Field W) (hp : f.Plain) (i : Nat) (hn : given i bs = none) (hd : f.default = none)
    (htg : D.target = none) (w : W)
    (hi : (∃ (d : StructDef V) (g : List V → W) (t : List V), f.item = d.dict.map g ∧ d.default = some t ∧ g t = w) ∨
      ∃ (e : EnumDef V) (g : EnumVal V → W) (t : EnumVal V), f.item = e.dict.map g ∧ e.default = some t ∧ g t = w) (v : W) :
    Holds D allowed pre span l bs f i v ↔ runTransforms f.transforms w = .ok v := by
  have hm : ∀ name sp, f.item.missing name sp = .ok w := by
    intro name sp
    rcases hi with ⟨d, g, t, h1, h2, rfl⟩ | ⟨e, g, t, h1, h2, rfl⟩
    · have : d.dict.missing name sp = .ok t := by
        have h3 : d.missing name sp = .ok t := by simp [StructDef.missing, h2]
        unfold StructDef.dict
        split
        · rename_i ht
          split
          · exact h3
          · rename_i hn
            rw [List.find?_eq_none] at hn
            have : d.fields.filter (fun f => f.isParsable && !f.isFlat) = [] := by
              rw [List.filter_eq_nil_iff]
              intro f hf
              obtain ⟨i, hi⟩ := List.getElem?_of_mem hf
              exact hn (f, i) (List.mem_zipIdx_iff_getElem?.2 hi)
            simp [StructDef.isTransparent, this] at ht
        · cases d.shape <;> exact h3
      rw [h1]
      show Res.map _ _ = _
      rw [this]
      rfl
    · rw [h1]
      show Res.map _ (match e.default with | some v => .ok v | none => _) = _
      rw [h2]
      rfl
  constructor
  · rintro (⟨b, hb, hr⟩ | ⟨hb, t, ht, _⟩)
    · cases hb with
      | item _ h => rw [hn] at h; cases h
      | flat h => exact absurd ((flatParsable_iff f).1 h).1 (by simp [hp.1])
      | container h => exact absurd hp.2 (by simp [Field.isParsable, h])
      | default _ h => rw [hd] at h; cases h
      | missing _ _ _ _ h => rw [hm] at h; cases h; exact hr
    · rw [htg] at ht; cases ht
  · intro hr
    exact .inl ⟨w, .missing hp hn hd htg (hm _ _), hr⟩

/-! ## Examples -/

/-- `#[deluxe(default = [true], and_then = not, and_then = reject_true)] struct S { a: bool }` -/
def guarded (err : SynErr) : StructDef Bool where
  shape := .named
  fields := [plainField "a".toList boolDict]
  default := some [true]
  transparent := none
  allowUnknown := none
  andThens := [fun vs => .ok (vs.map not), fun vs => if vs = [true] then .error err else .ok vs]

/-- C80: `a` alone is `true`, which the first function makes `false`, which the second one accepts. -/
example (err : SynErr) : ((guarded err).dict.inline (.named 0) [⟨[.ident "a".toList 1], 2, none⟩]).1 = .ok [false] :=
  rfl

example (err : SynErr) : Chain (guarded err).andThens [true] (.ok [false]) := .step rfl (.step rfl (.done _))

/-- C80: `a = false` becomes `true`, which the second function rejects. -/
example (err : SynErr) : ((guarded err).dict.inline (.named 0)
    [⟨[.ident "a".toList 1, .punct '=' false 2, .ident "false".toList 3], 4, none⟩]).1 = .err err := rfl

example (err : SynErr) : Chain (guarded err).andThens [false] (.error err) := .step rfl (.fail rfl)

/-- C80: a structure with a field of that type. -/
def holder (err : SynErr) : StructDef (List Bool) where
  shape := .named
  fields := [plainField "s".toList ((guarded err).dict.map id)]
  default := none
  transparent := none
  allowUnknown := none
  andThens := []

/-- C80: the field is the default `[true]`, on which the functions were not run (they would give `[false]`). -/
example (err : SynErr) : ((holder err).dict.inline (.named 0) [⟨[], 2, none⟩]).1 = .ok [[true]] := rfl

/-- C80: the hypotheses of `c80_default` hold there. -/
example (err : SynErr) (v : List Bool) : Holds (holder err).data [] [] 0 [] [] (plainField "s".toList ((guarded err).dict.map id)) 0 v ↔
    (.ok [true] : Except SynErr (List Bool)) = .ok v :=
  c80_default (holder err).data [] [] 0 [] [] _ ⟨rfl, rfl⟩ 0 rfl rfl rfl [true]
    (.inl ⟨guarded err, id, [true], rfl, rfl, rfl⟩) v

/-- `#[deluxe(and_then = f, and_then = g)] enum E { A }` -/
def guardedEnum (f g : EnumVal Bool → Except SynErr (EnumVal Bool)) : EnumDef Bool where
  variants := [{ transparentVariant (fun b => .ok b) with shape := .unit, fields := [], transparent := none }]
  default := none
  allowUnknown := none
  andThens := [f, g]

/-- C80: the message of a failing function comes after that about the unknown key. -/
example (err : SynErr) (f : EnumVal Bool → Except SynErr (EnumVal Bool)) :
    ∃ x y : SynErr, ((guardedEnum (fun _ => .error err) f).dict.inline (.named 0)
      [⟨[.ident "a".toList 1, .punct ',' false 2, .ident "b".toList 3], 4, none⟩]).1 = .err x ∧
      x.toList = y.toList ++ err.toList := ⟨_, _, rfl, SynErr.toList_combine _ _⟩

end
end Deluxe
