import Verif.Model.KeyString
import Verif.Props.Strings
import Verif.Props.RestOthers
/-!
# C90, C91: key strings, and `SmallString` as a field
-/
namespace Deluxe

/-- The text of the keys of each type with `ToKeyString`. -/
inductive KeyText : {α : Type} → KeyStr α → (α → Str) → Prop
  | display {α : Type} {disp : α → List Str} {t : α → Str} :
      (∀ a, (disp a).flatten = t a) → KeyText (.display disp) t
  | string {α : Type} {text : α → Str} : KeyText (.string text) text
  | lossy {α : Type} {text : α → Str} : KeyText (.lossy text) text
  | option {α : Type} {k : KeyStr α} {t : α → Str} : KeyText k t →
      KeyText (.option k) (fun a => a.elim "None".toList fun v => "Some(".toList ++ t v ++ ")".toList)
  | seq {α : Type} {k : KeyStr α} {t : α → Str} : KeyText k t →
      KeyText (.seq k) (fun vs => "[".toList ++ List.intercalate ", ".toList (vs.map t) ++ "]".toList)
  | map {κ ν : Type} {k : KeyStr κ} {v : KeyStr ν} {tk : κ → Str} {tv : ν → Str} : KeyText k tk → KeyText v tv →
      KeyText (.map k v) (fun es => "{".toList ++
        List.intercalate ", ".toList (es.map fun e => tk e.1 ++ " = ".toList ++ tv e.2) ++ "}".toList)
  | wrapper {α β : Type} {get : β → α} {k : KeyStr α} {t : α → Str} : KeyText k t →
      KeyText (.wrapper get k) (fun b => t (get b))
  | unit : KeyText .unit (fun _ => "()".toList)
  | tuple {α : Type} {ks : List (KeyStr α)} {ts : List (α → Str)} (h : ks.length = ts.length) :
      (∀ x ∈ ks.zip ts, KeyText x.1 x.2) →
      KeyText (.tuple ks) (fun vs => "(".toList ++
        List.intercalate ", ".toList (List.zipWith (fun t v => t v) ts vs) ++ ")".toList)
  | path {α : Type} {disp : α → List Str} {t : α → Str} (h : ∀ a, (disp a).flatten = t a) :
      KeyText (.path disp) (fun segs => List.intercalate "::".toList
        (segs.map fun s => s.1 ++ s.2.elim [] t))
  | punctuated {α β : Type} {k : KeyStr α} {t : α → Str} {disp : β → List Str} {td : β → Str}
      (hd : ∀ b, (disp b).flatten = td b) : KeyText k t →
      KeyText (.punctuated k disp) (fun ps => "[".toList ++
        (ps.map fun p => t p.1 ++ p.2.elim [] fun sep => td sep ++ " ".toList).flatten ++ "]".toList)

theorem keyToString_spec (pieces : List Str) :
    ∃ s, keyToString pieces = some s ∧ s.asStr = pieces.flatten := by
  have gen : ∀ (pieces : List Str) (x : SmallStr), ∃ s, pieces.foldlM SmallStr.pushStr x = some s ∧
      s.asStr = x.asStr ++ pieces.flatten := by
    intro pieces
    induction pieces with
    | nil => intro x; exact ⟨x, rfl, by simp⟩
    | cons p ps ih =>
      intro x
      obtain ⟨y, h1, h2, -⟩ := pushStr_spec x p
      obtain ⟨s, h3, h4⟩ := ih y
      refine ⟨s, ?_, by rw [h4, h2]; simp⟩
      rw [List.foldlM_cons, h1]
      exact h3
  obtain ⟨s, h1, h2⟩ := gen pieces SmallStr.new
  exact ⟨s, h1, by rw [h2]; rfl⟩

theorem intercalate_cons_cons (sep a b : Str) (l : List Str) :
    List.intercalate sep (a :: b :: l) = a ++ sep ++ List.intercalate sep (b :: l) := by
  simp [List.intercalate, List.intersperse]

theorem commaLoop_flatten {α : Type} {fmt : α → List Str} {t : α → Str} {vs : List α}
    (h : ∀ v ∈ vs, (fmt v).flatten = t v) (i : Nat) :
    (KeyStr.commaLoop fmt i vs).flatten =
      (if i > 0 ∧ vs ≠ [] then ", ".toList else []) ++ List.intercalate ", ".toList (vs.map t) := by
  induction vs generalizing i with
  | nil => simp [KeyStr.commaLoop, List.intercalate]
  | cons v vs ih =>
    rw [KeyStr.commaLoop, List.flatten_append, List.flatten_append,
      ih (fun w hw => h w (List.mem_cons_of_mem _ hw)), h v List.mem_cons_self]
    have h1 : (if i > 0 then [", ".toList] else []).flatten = if i > 0 ∧ v :: vs ≠ [] then ", ".toList else [] := by
      by_cases hi : i > 0 <;> simp [hi]
    rw [h1, List.append_assoc]
    congr 1
    cases vs with
    | nil => simp [List.intercalate]
    | cons w ws => simp only [List.map_cons, intercalate_cons_cons]; simp

theorem pathLoop_flatten {α : Type} {disp : α → List Str} {t : α → Str} (h : ∀ a, (disp a).flatten = t a)
    (segs : List (Str × Option α)) (i : Nat) :
    (KeyStr.pathLoop disp i segs).flatten =
      (if i > 0 ∧ segs ≠ [] then "::".toList else []) ++
        List.intercalate "::".toList (segs.map fun s => s.1 ++ s.2.elim [] t) := by
  induction segs generalizing i with
  | nil => simp [KeyStr.pathLoop, List.intercalate]
  | cons s segs ih =>
    obtain ⟨ident, args⟩ := s
    rw [KeyStr.pathLoop, List.flatten_append, List.flatten_append, List.flatten_append, ih]
    have h1 : (if i > 0 then ["::".toList] else []).flatten =
        if i > 0 ∧ (ident, args) :: segs ≠ [] then "::".toList else [] := by
      by_cases hi : i > 0 <;> simp [hi]
    have h2 : (args.elim [] disp).flatten = args.elim [] t := by
      cases args <;> simp [h]
    rw [h1, h2, List.append_assoc, List.append_assoc]
    congr 1
    cases segs with
    | nil => simp [List.intercalate]
    | cons w ws => simp only [List.map_cons, intercalate_cons_cons]; simp

theorem withKey_default {α : Type} (fmt : α → List Str) (a : α) :
    (KeyStr.mk' fmt).withKey a = some (fmt a).flatten := by
  obtain ⟨s, h1, h2⟩ := keyToString_spec (fmt a)
  simp [KeyStr.mk', h1, h2]

theorem zipWith_fmt {α : Type} (ks : List (KeyStr α)) (ts : List (α → Str)) (vs : List α) (hl : ks.length = ts.length)
    (hx : ∀ x ∈ ks.zip ts, ∀ a, (x.1.fmt a).flatten = x.2 a ∧ x.1.withKey a = some (x.2 a)) :
    (List.zipWith (fun k v => KeyStr.fmt k v) ks vs).map List.flatten = List.zipWith (fun t v => t v) ts vs := by
  induction ks generalizing ts vs with
  | nil =>
    cases ts with
    | nil => simp
    | cons _ _ => simp at hl
  | cons k ks ih =>
    cases ts with
    | nil => simp at hl
    | cons t ts =>
      cases vs with
      | nil => simp
      | cons v vs =>
        have h1 := (hx (k, t) (by simp) v).1
        have h2 := ih ts vs (by simpa using hl) fun x hx' => hx x (by simp [hx'])
        simp [h1, h2]

/-- What is written, and what `with_key_string` passes on, are the text of the table. -/
theorem KeyText.spec {α : Type} {k : KeyStr α} {t : α → Str} (h : KeyText k t) :
    ∀ a, (k.fmt a).flatten = t a ∧ k.withKey a = some (t a) := by
  have dflt : ∀ {α : Type} {fmt : α → List Str} {t : α → Str}, (∀ a, (fmt a).flatten = t a) →
      ∀ a, ((KeyStr.mk' fmt).fmt a).flatten = t a ∧ (KeyStr.mk' fmt).withKey a = some (t a) :=
    fun h a => ⟨h a, by rw [withKey_default, h]⟩
  induction h with
  | display h => exact dflt h
  | string => exact fun a => ⟨by simp [KeyStr.string], rfl⟩
  | lossy => exact fun a => ⟨by simp [KeyStr.lossy], rfl⟩
  | option _ ih =>
    refine dflt fun a => ?_
    cases a with
    | none => rfl
    | some v => simp [(ih v).1]
  | seq _ ih =>
    refine dflt fun vs => ?_
    simp [commaLoop_flatten (fun v _ => (ih v).1)]
  | @map _ _ k v tk tv _ _ ihk ihv =>
    refine dflt fun es => ?_
    have := commaLoop_flatten (fmt := fun e => k.fmt e.1 ++ [" = ".toList] ++ v.fmt e.2)
      (t := fun e => tk e.1 ++ " = ".toList ++ tv e.2) (vs := es) (fun e _ => by simp [(ihk e.1).1, (ihv e.2).1]) 0
    simp only [List.flatten_append, this]
    simp
  | wrapper _ ih => exact fun b => ih _
  | unit => exact fun _ => ⟨rfl, rfl⟩
  | @tuple _ ks ts hlen _ ih =>
    refine dflt fun vs => ?_
    have := commaLoop_flatten (fmt := fun x => x) (t := List.flatten)
      (vs := List.zipWith (fun k v => KeyStr.fmt k v) ks vs) (fun _ _ => rfl) 0
    simp only [List.flatten_append, this, zipWith_fmt ks ts vs hlen ih]
    simp
  | path h =>
    refine dflt fun segs => ?_
    simp [pathLoop_flatten h]
  | @punctuated _ _ k t disp td hd _ ih =>
    refine dflt fun ps => ?_
    have : (ps.flatMap fun p => k.fmt p.1 ++ p.2.elim [] fun sep => disp sep ++ [" ".toList]).flatten =
        (ps.map fun p => t p.1 ++ p.2.elim [] fun sep => td sep ++ " ".toList).flatten := by
      induction ps with
      | nil => rfl
      | cons p ps ihp =>
        rw [List.flatMap_cons, List.flatten_append, ihp, List.map_cons, List.flatten_cons]
        congr 1
        obtain ⟨a, b⟩ := p
        cases b <;> simp [(ih a).1, hd]
    rw [List.flatten_append, List.flatten_append, this]
    simp

/-- C90: whatever the type of a key, `with_key_string` passes on the string that `fmt_key_string` writes and
`key_to_string` returns, and this is the text of the table. -/
theorem c90_same {α : Type} {k : KeyStr α} {t : α → Str} (h : KeyText k t) (a : α) :
    k.withKey a = some (t a) ∧ ∃ s, keyToString (k.fmt a) = some s ∧ s.asStr = t a := by
  obtain ⟨s, h1, h2⟩ := keyToString_spec (k.fmt a)
  exact ⟨(h.spec a).2, s, h1, by rw [h2, (h.spec a).1]⟩

/-- C90: the key string of a path is its segments with `::` between them, also inside `Box` and the like, so a key of a
map is compared with the names of fields under the string that the derived code uses for the same key. -/
theorem c90_path {α β : Type} {disp : α → List Str} {t : α → Str} (h : ∀ a, (disp a).flatten = t a)
    (get : β → List (Str × Option α)) (b : β) {segs : List Str} (hb : get b = segs.map fun s => (s, none)) :
    (KeyStr.path disp).withKey (get b) = some (keyString segs) ∧
      (KeyStr.wrapper get (.path disp)).withKey b = some (keyString segs) := by
  have : (KeyStr.path disp).withKey (get b) = some (keyString segs) := by
    rw [(c90_same (.path h) (get b)).1, hb]
    congr 1
    clear hb
    induction segs with
    | nil => rfl
    | cons s segs ih =>
      cases segs with
      | nil => simp [keyString, List.intercalate]
      | cons s' segs =>
        simp only [List.map_cons, intercalate_cons_cons, keyString] at ih ⊢
        rw [ih]
        simp
  exact ⟨this, this⟩

/-- C90: a `HashMap<Option<String>, Vec<(char, ())>>` as a key. -/
example : ∃ t, KeyText (.map (.option (.string id)) (.seq (.tuple [.display (fun _ : Unit => [['c'], []]), .unit]))) t ∧
    t [(some "a".toList, [[(), ()], [(), ()]]), (none, [])] = "{Some(a) = [(c, ()), (c, ())], None = []}".toList :=
  ⟨_, .map (.option .string) (.seq (.tuple (ts := [fun _ => ['c'], fun _ => "()".toList]) rfl (by
    intro x hx
    simp only [List.zip_cons_cons, List.zip_nil_right, List.mem_cons, List.not_mem_nil, or_false] at hx
    rcases hx with rfl | rfl
    · exact .display fun _ => rfl
    · exact .unit))), by decide⟩

/-! ## C91 -/

/-- The characters between the quotes of a string literal, and the characters that they stand for: a character stands
for itself, an escape sequence for a character, a backslash at the end of a line and the white space after it for
nothing. -/
inductive Spells : Str → Str → Prop
  | nil : Spells [] []
  | char {c t v} : c ≠ '"' → c ≠ '\\' → Spells t v → Spells (c :: t) (c :: v)
  | escape {e c t v} : e ≠ [] → Spells t v → Spells ('\\' :: e ++ t) (c :: v)
  | continued {ws t v} : Spells t v → Spells ('\\' :: '\n' :: ws ++ t) v

/-- The source text of a string literal, with a suffix, and its value. -/
inductive StrText : Str → Str → Prop
  | quoted {t v suffix} : Spells t v → StrText ('"' :: t ++ '"' :: suffix) v
  | raw {v suffix} (n : Nat) :
      StrText ('r' :: List.replicate n '#' ++ '"' :: v ++ '"' :: List.replicate n '#' ++ suffix) v

theorem Spells.length {t v : Str} (h : Spells t v) : v.length ≤ t.length := by
  induction h with
  | nil => exact Nat.le_refl _
  | char _ _ _ ih => simpa using ih
  | escape he _ ih =>
    simp only [List.length_cons, List.length_append, List.cons_append]
    omega
  | continued _ ih =>
    simp only [List.length_cons, List.length_append, List.cons_append]
    omega

theorem StrText.longer {t v : Str} (h : StrText t v) : v.length < t.length := by
  cases h with
  | quoted h =>
    have := h.length
    simp only [List.length_cons, List.length_append, List.cons_append]
    omega
  | raw n =>
    simp only [List.length_cons, List.length_append, List.cons_append, List.length_replicate]
    omega

/-- C91 fails for every string literal: a field of type `String` is its value, a field of type `SmallString` is its
source text, with the quotes, and they always differ. -/
theorem c91_smallString_violated (text : Span → Str) (v : Str) (sp : Span) (ht : StrText (text sp) v) (mode : Mode)
    (rest : List Tok) (sc : Span) (u : Option Span) :
    ∃ x, ((smallStringDict text).parse mode ⟨.lit (.str v) sp :: rest, sc, u⟩).1 = .ok x ∧
      (stringDict.parse mode ⟨.lit (.str v) sp :: rest, sc, u⟩).1 = .ok v ∧ x.asStr = text sp ∧ x.asStr ≠ v := by
  obtain ⟨x, h1, h2⟩ := keyToString_spec [text sp]
  refine ⟨x, ?_, rfl, by simpa using h2, ?_⟩
  · show ((match keyToString [text sp] with
      | some x => (.ok x, ⟨rest, sc, u⟩)
      | none => (.panic, ⟨rest, sc, u⟩) : Res SmallStr × Stream)).1 = _
    rw [h1]
  · intro h
    have := ht.longer
    rw [h2] at h
    simp only [List.flatten_cons, List.flatten_nil, List.append_nil] at h
    rw [h] at this
    exact Nat.lt_irrefl _ this

/-- C91, what holds: the two types accept the same input, leave the same of it, and report the same errors. -/
theorem c91_accepts_partial (text : Span → Str) (mode : Mode) (s : Stream) :
    ((smallStringDict text).parse mode s).2 = (stringDict.parse mode s).2 ∧
    (∀ e, ((smallStringDict text).parse mode s).1 = .err e ↔ (stringDict.parse mode s).1 = .err e) ∧
    ((∃ x, ((smallStringDict text).parse mode s).1 = .ok x) ↔ ∃ v, (stringDict.parse mode s).1 = .ok v) := by
  obtain ⟨x, h1, h2⟩ := keyToString_spec [text s.span]
  have e1 : stringDict.parse mode s = parseLitStr s := rfl
  have e2 : (smallStringDict text).parse mode s =
      (match parseLitStr s with
        | (.ok _, s') =>
          match keyToString [text s.span] with
          | some x => (.ok x, s')
          | none => (.panic, s')
        | (.err e, s') => (.err e, s')
        | (.panic, s') => (.panic, s') : Res SmallStr × Stream) := rfl
  rw [e1, e2, h1]
  generalize parseLitStr s = r
  obtain ⟨r, s'⟩ := r
  cases r <;> simp

/-- C91: the source text `"a\n"` of the literal with the value `a` and a line break. -/
example : StrText "\"a\\n\"".toList "a\n".toList :=
  .quoted (t := ['a', '\\', 'n']) (suffix := []) (.char (by decide) (by decide) (.escape (e := ['n']) (by simp) .nil))

/-- C91: the raw literal `r#"a"#`. -/
example : StrText "r#\"a\"#".toList "a".toList := .raw (v := ['a']) (suffix := []) 1

end Deluxe
