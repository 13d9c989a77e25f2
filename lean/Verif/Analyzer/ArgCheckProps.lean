import Verif.Analyzer.ArgCheck
import Verif.Ir.ValueProps

/-!
# C42: argument values are accepted iff they have the documented shape
-/

namespace Verif.Analyzer

open Verif.Ir

/-! ## Specification -/

/-- Arguments that stand alone. -/
def standsAlone : ArgKind → Bool
  | .anonymous | .constructor | .decode | .default | .encode | .event | .impl | .message
  | .payable | .storage | .topic | .typeInfo => true
  | _ => false

/-- An integer literal up to a maximum (C21 says which literals). -/
def IntUpTo (max : Nat) (x : MetaValue) : Prop :=
  x.kind = .intNumber ∧ ∃ n, n ≤ max ∧ asInt max .intNumber x.text = some n

/-- The hexadecimal digits of a text, without the optional prefix `0x`. -/
def hexDigits (s : String) : List Char :=
  if s.toList.take 2 = ['0', 'x'] then s.toList.drop 2 else s.toList

/-- The documented values, by argument. `ctor`: the argument belongs to an attribute of a
constructor. -/
def ValueFits (firstIdent : String → Option String) (version : Version) (ctor : Bool) :
    ArgKind → MetaValue → Prop
  | .function, x => IntUpTo 65535 x
  | .extension, x => IntUpTo (match version with | .v5 => 65535 | .v4 => 4294967295) x
  | .selector, x => IntUpTo 4294967295 x ∨ x.kind = .underscore ∨
      (version = .v5 ∧ ctor = false ∧ x.kind = .at)
  | .handleStatus, x | .derive, x => x.kind = .trueKw ∨ x.kind = .falseKw
  | .env, x | .environment, x | .sandbox, x => x.kind = .path
  | .keepAttr, x | .additionalContracts, x => x.kind = .string
  | .namespace, x => ∃ s, x.asString = some s ∧ firstIdent s = some s
  | .signatureTopic, x => ∃ s, x.asString = some s ∧
      (∀ c ∈ hexDigits s, (toDigit 16 c).isSome) ∧
      ((hexDigits s).length = 63 ∨ (hexDigits s).length = 64)
  | .url, x => ∃ s a b, x.asString = some s ∧ s.toList = a ++ "://".toList ++ b
  | _, _ => False

/-- Arguments that take a nested argument: the options and whether one is required. -/
def nestedSpec : ArgKind → Option (List ArgKind × Bool)
  | .backend => some ([.node, .runtimeOnly], true)
  | .node => some ([.url], false)
  | .runtimeOnly => some ([.sandbox], false)
  | _ => none

/-- The documented shape of an argument. -/
inductive Fits (firstIdent : String → Option String) (version : Version) (ctor : Bool) :
    ArgKind → Meta → Prop
  | alone {k m} : standsAlone k = true → m.eq = none → m.value = .none → m.nested = none →
      Fits firstIdent version ctor k m
  | value {k m x} : m.value = .ok x → ValueFits firstIdent version ctor k x → m.nested = none →
      Fits firstIdent version ctor k m
  | leaf {k m opts} : nestedSpec k = some (opts, false) → m.eq = none → m.value = .none →
      m.nested = none → Fits firstIdent version ctor k m
  | nested {k m opts r m'} : nestedSpec k = some (opts, r) → m.eq = none → m.value = .none →
      m.nested = some m' → (Arg.ofMeta m').kind ∈ opts →
      Fits firstIdent version ctor (Arg.ofMeta m').kind m' → Fits firstIdent version ctor k m

/-- There is no white space in the string that is the value. -/
def Unspaced (m : Meta) : Prop :=
  ∀ x s, m.value = .ok x → x.asString = some s → ∀ c ∈ s.toList, c ∉ [' ', '\r', '\n', '\t']

/-- No nested argument where none belongs, no white space in a signature topic, and no dangling `=` or
malformed value where a nested argument belongs. -/
inductive Tidy : ArgKind → Meta → Prop
  | flat {k m} : nestedSpec k = none → m.nested = none → (k = .signatureTopic → Unspaced m) → Tidy k m
  | leaf {k m o} : nestedSpec k = some o → m.eq = none → (∀ items, m.value ≠ .err items) →
      m.nested = none → Tidy k m
  | nested {k m m' o} : nestedSpec k = some o → m.eq = none → (∀ items, m.value ≠ .err items) →
      m.nested = some m' → Tidy (Arg.ofMeta m').kind m' → Tidy k m

/-- The argument has a name: some text before its `=`, value or nested argument. -/
def Named (m : Meta) : Prop :=
  (∃ p, m.name = .ok p ∧ p.elem.text ≠ "") ∨
    ∃ items, m.name = .err items ∧ ∃ p ∈ items, p.elem.text ≠ ""

/-! ## Lemmas -/

theorem nameIsEmpty_iff (m : Meta) : nameIsEmpty m = false ↔ Named m := by
  have h : ∀ s : String, s.isEmpty = false ↔ s ≠ "" := by
    intro s
    rw [← Bool.not_eq_true, String.isEmpty_iff]
  unfold nameIsEmpty Named
  cases m.name with
  | ok p => simp
  | err items => simp
  | none => simp

theorem isSome_asInt (max : Nat) (x : MetaValue) :
    (asInt max x.kind x.text).isSome = true ↔ IntUpTo max x := by
  unfold IntUpTo
  constructor
  · intro h
    obtain ⟨n, hn⟩ := Option.isSome_iff_exists.1 h
    have hk : x.kind = .intNumber := by
      unfold asInt at hn
      split at hn
      · assumption
      · cases hn
    exact ⟨hk, n, asInt_le _ _ _ _ hn, hk ▸ hn⟩
  · rintro ⟨hk, n, _, hn⟩
    rw [hk, hn]
    rfl

theorem containsText_iff (pat s : List Char) :
    containsText pat s = true ↔ ∃ a b, s = a ++ pat ++ b := by
  induction s with
  | nil =>
    unfold containsText
    rw [List.isEmpty_iff]
    constructor
    · rintro rfl
      exact ⟨[], [], rfl⟩
    · rintro ⟨a, b, h⟩
      have := congrArg List.length h
      simp only [List.length_nil, List.length_append] at this
      exact List.length_eq_zero_iff.1 (by omega)
  | cons c cs ih =>
    unfold containsText
    rw [Bool.or_eq_true, ih, List.isPrefixOf_iff_prefix]
    constructor
    · rintro (⟨b, h⟩ | ⟨a, b, h⟩)
      · exact ⟨[], b, by simpa using h.symm⟩
      · exact ⟨c :: a, b, by rw [h]; rfl⟩
    · rintro ⟨a, b, h⟩
      cases a with
      | nil => exact .inl ⟨b, by simpa using h.symm⟩
      | cons d a =>
        simp only [List.cons_append, List.cons.injEq] at h
        exact .inr ⟨a, b, h.2⟩

theorem isHex32_iff (x : MetaValue) :
    x.isHex32 = true ↔ ∃ s, x.asString = some s ∧
      (∀ c ∈ hexDigits s, (toDigit 16 c).isSome ∨ c ∈ [' ', '\r', '\n', '\t']) ∧
      ((hexDigits s).length = 63 ∨ (hexDigits s).length = 64) := by
  unfold MetaValue.isHex32
  cases x.asString with
  | none => simp
  | some s =>
    simp only [Option.some.injEq, exists_eq_left']
    have hd : MetaValue.stripHex s.toList = hexDigits s := by
      unfold hexDigits
      match hs : s.toList with
      | [] => rfl
      | [a] =>
        rw [if_neg (by simp)]
        unfold MetaValue.stripHex
        split
        · next h => simp at h
        · rfl
      | a :: b :: t =>
        by_cases ha : a = '0'
        · by_cases hb : b = 'x'
          · subst ha hb; rfl
          · rw [if_neg (by simp [hb])]
            unfold MetaValue.stripHex
            split
            · next h => simp only [List.cons.injEq] at h; exact absurd h.2.1 hb
            · rfl
        · rw [if_neg (by simp [ha])]
          unfold MetaValue.stripHex
          split
          · next h => simp only [List.cons.injEq] at h; exact absurd h.1 ha
          · rfl
    unfold MetaValue.hexBytes
    rw [hd]
    have hall : (hexDigits s).all (fun c => (toDigit 16 c).isSome || [' ', '\r', '\n', '\t'].contains c) =
        true ↔ ∀ c ∈ hexDigits s, (toDigit 16 c).isSome ∨ c ∈ [' ', '\r', '\n', '\t'] := by
      rw [List.all_eq_true]
      simp only [Bool.or_eq_true, List.contains_iff_mem]
    by_cases ha : (hexDigits s).all
        (fun c => (toDigit 16 c).isSome || [' ', '\r', '\n', '\t'].contains c) = true
    · rw [if_pos ha]
      rw [hall] at ha
      simp only [Option.some_beq_some, beq_iff_eq]
      constructor
      · intro h; exact ⟨ha, by omega⟩
      · rintro ⟨_, h⟩; omega
    · rw [if_neg ha]
      rw [hall] at ha
      constructor
      · intro h; cases h
      · rintro ⟨h, -⟩; exact absurd h ha

theorem asString_isSome (x : MetaValue) : (∃ s, x.asString = some s) ↔ x.kind = .string := by
  unfold MetaValue.asString
  by_cases h : x.kind = .string
  · simp [h]
  · simp [h]

theorem asBool_isSome (x : MetaValue) :
    x.asBool.isSome = true ↔ x.kind = .trueKw ∨ x.kind = .falseKw := by
  unfold MetaValue.asBool
  cases x.kind <;> simp

/-- The kinds with a plain value. -/
def takesValue : ArgKind → Bool
  | .function | .extension | .selector | .handleStatus | .derive | .env | .environment | .sandbox
  | .keepAttr | .additionalContracts | .namespace | .signatureTopic | .url => true
  | _ => false

theorem any_value (m : Meta) (p : MetaValue → Bool) (P : MetaValue → Prop)
    (h : ∀ x, p x = true ↔ P x) :
    ((okValue m).any p) = true ↔
      ∃ x, m.value = .ok x ∧ P x := by
  unfold okValue
  cases m.value with
  | ok v => simp [h]
  | err i => simp
  | none => simp

/-- The documented values, and signature topics with white space. -/
def Loose (fi : String → Option String) (version : Version) (ctor : Bool) : ArgKind → MetaValue → Prop
  | .signatureTopic, x => ∃ s, x.asString = some s ∧
      (∀ c ∈ hexDigits s, (toDigit 16 c).isSome ∨ c ∈ [' ', '\r', '\n', '\t']) ∧
      ((hexDigits s).length = 63 ∨ (hexDigits s).length = 64)
  | k, x => ValueFits fi version ctor k x

theorem loose_of_fits {fi : String → Option String} {v : Version} {ctor : Bool} {k : ArgKind}
    {x : MetaValue} (h : ValueFits fi v ctor k x) : Loose fi v ctor k x := by
  cases k <;> try exact h
  obtain ⟨s, h1, h2, h3⟩ := h
  exact ⟨s, h1, fun c hc => .inl (h2 c hc), h3⟩

theorem fits_of_loose {fi : String → Option String} {v : Version} {ctor : Bool} {k : ArgKind}
    {x : MetaValue} (h : Loose fi v ctor k x)
    (hu : k = .signatureTopic → ∀ s, x.asString = some s → ∀ c ∈ s.toList, c ∉ [' ', '\r', '\n', '\t']) :
    ValueFits fi v ctor k x := by
  cases k <;> try exact h
  obtain ⟨s, h1, h2, h3⟩ := h
  refine ⟨s, h1, fun c hc => (h2 c hc).resolve_right (hu rfl s h1 c ?_), h3⟩
  unfold hexDigits at hc
  split at hc
  · exact List.mem_of_mem_drop hc
  · exact hc

theorem valueOk_iff (fi : String → Option String) (v : Version) (attr : Option AttrKind)
    (k : ArgKind) (m : Meta) (hk : takesValue k = true) :
    ∃ b, valueOk fi (expectedValue v attr k) m = some b ∧
      (b = true ↔ ∃ x, m.value = .ok x ∧
        Loose fi v (decide (attr = some (.arg .constructor))) k x) := by
  have hsome : ∀ (c : StringKind) (x : MetaValue), c = .default ∨ c = .spaceList ∨ c = .commaList →
      (validString fi c x = true ↔ x.kind = .string) := by
    intro c x hc
    rw [← asString_isSome]
    unfold validString
    rcases hc with rfl | rfl | rfl <;> cases x.asString <;> simp
  have hpath : ∀ x : MetaValue, x.isPath = true ↔ x.kind = .path := by
    intro x
    simp [MetaValue.isPath]
  have hid : ∀ x : MetaValue, validString fi .identifier x = true ↔
      ∃ s, x.asString = some s ∧ fi s = some s := by
    intro x
    unfold validString MetaValue.isIdent
    cases x.asString <;> simp
  have hhex : ∀ x : MetaValue, validString fi .hex x = true ↔ x.isHex32 = true := by
    intro x
    unfold validString MetaValue.isHex32
    cases x.asString <;> simp
  have hurl : ∀ x : MetaValue, validString fi .url x = true ↔
      ∃ s a b, x.asString = some s ∧ s.toList = a ++ "://".toList ++ b := by
    intro x
    unfold validString
    cases x.asString with
    | none => simp
    | some s =>
      refine (containsText_iff _ _).trans ?_
      constructor
      · rintro ⟨a, b, h⟩
        exact ⟨s, a, b, rfl, h⟩
      · rintro ⟨s', a, b, hs, h⟩
        rw [Option.some.inj hs]
        exact ⟨a, b, h⟩
  have hsel : ∀ x : MetaValue, (x.asU32.isSome || x.isWildcard) = true ↔
      IntUpTo 4294967295 x ∨ x.kind = .underscore := by
    intro x
    rw [Bool.or_eq_true]
    exact or_congr (isSome_asInt _ x) (by simp [MetaValue.isWildcard])
  have hat : ∀ x : MetaValue, (x.asU32.isSome || x.isWildcard || x.isAt) = true ↔
      IntUpTo 4294967295 x ∨ x.kind = .underscore ∨ x.kind = .at := by
    intro x
    rw [Bool.or_eq_true, hsel, or_assoc]
    exact or_congr_right (or_congr_right (by simp [MetaValue.isAt]))
  by_cases hs : k = .selector ∧ v = .v5
  · obtain ⟨rfl, rfl⟩ := hs
    by_cases ha : attr = some (.arg .constructor)
    · subst ha
      refine ⟨_, rfl, any_value m _ _ fun x => ?_⟩
      simpa [Loose, ValueFits] using hsel x
    · have he : expectedValue .v5 attr .selector = .u32OrWildcardOrComplement := by
        unfold expectedValue ValueKind.ofArgV5
        cases attr with
        | none => rfl
        | some a => simpa using ha
      rw [he]
      refine ⟨_, rfl, any_value m _ _ fun x => ?_⟩
      simpa [Loose, ValueFits, ha] using hat x
  · cases k <;> simp only [takesValue, Bool.false_eq_true] at hk <;> cases v <;>
      first
      | exact absurd ⟨rfl, rfl⟩ hs
      | exact ⟨_, rfl, any_value m _ _ fun x => isSome_asInt _ x⟩
      | exact ⟨_, rfl, any_value m _ _ fun x => asBool_isSome x⟩
      | exact ⟨_, rfl, any_value m _ _ fun x => hpath x⟩
      | exact ⟨_, rfl, any_value m _ _ fun x => hid x⟩
      | exact ⟨_, rfl, any_value m _ _ fun x => (hhex x).trans (isHex32_iff x)⟩
      | exact ⟨_, rfl, any_value m _ _ fun x => hurl x⟩
      | exact ⟨_, rfl, any_value m _ _ fun x => hsome _ x (by simp)⟩
      | (refine ⟨_, rfl, any_value m _ _ fun x => ?_⟩
         simpa [Loose, ValueFits] using hsel x)

theorem validateArg_eq (fi : String → Option String) (v : Version) (attr : Option AttrKind)
    (m : Meta) (k : ArgKind) :
    validateArg fi v attr m k =
      if k = .unknown then [if nameIsEmpty m then .missing else .unknown]
      else if expectedValue v attr k = .none then
        if m.eq.isSome || m.value.isSome then [.unexpectedValue] else []
      else
        match valueOk fi (expectedValue v attr k) m with
        | some ok => if ok then [] else [.badValue]
        | none =>
          match m.value with
          | .ok _ => [.useNested]
          | _ =>
            match m.nested with
            | none => if (nestedOptions (expectedValue v attr k)).2 then [.nestedMissing] else []
            | some m' =>
              if (Arg.ofMeta m').kind ∈ (nestedOptions (expectedValue v attr k)).1 then
                validateArg fi v attr m' (Arg.ofMeta m').kind
              else [.nestedUnknown] := by
  cases m with
  | mk name eq value nested start stop =>
    rw [validateArg.eq_def]
    cases value <;> cases nested <;> rfl

theorem kinds_cases (k : ArgKind) :
    k = .unknown ∨ standsAlone k = true ∨ takesValue k = true ∨ (nestedSpec k).isSome = true := by
  cases k <;> decide

theorem unknown_not_option (v : Version) (attr : Option AttrKind) (k : ArgKind) :
    .unknown ∉ (nestedOptions (expectedValue v attr k)).1 := by
  by_cases hs : k = .selector ∧ v = .v5
  · obtain ⟨rfl, rfl⟩ := hs
    unfold expectedValue ValueKind.ofArgV5
    dsimp only
    split <;> simp [nestedOptions]
  · cases k <;> cases v <;>
      first
      | exact absurd ⟨rfl, rfl⟩ hs
      | (simp [expectedValue, ValueKind.ofArg, ValueKind.ofArgV5, nestedOptions]; done)

/-- The last part of `validateArg_eq`. -/
def nestedPart (fi : String → Option String) (v : Version) (attr : Option AttrKind) (k : ArgKind)
    (m : Meta) : List ArgIssue :=
  match m.nested with
  | none => if (nestedOptions (expectedValue v attr k)).2 then [.nestedMissing] else []
  | some m' =>
    if (Arg.ofMeta m').kind ∈ (nestedOptions (expectedValue v attr k)).1 then
      validateArg fi v attr m' (Arg.ofMeta m').kind
    else [.nestedUnknown]

theorem expected_nested (fi : String → Option String) (v : Version) (attr : Option AttrKind)
    (k : ArgKind) (m : Meta) (o : List ArgKind × Bool) (h : nestedSpec k = some o) :
    k ≠ .unknown ∧ expectedValue v attr k ≠ .none ∧
      valueOk fi (expectedValue v attr k) m = none ∧ nestedOptions (expectedValue v attr k) = o := by
  cases k <;> simp only [nestedSpec, reduceCtorEq, Option.some.injEq] at h <;> subst h <;>
    cases v <;> exact ⟨by decide, (by intro h; cases h), rfl, rfl⟩

/-! ## Theorems -/

/-- Everything of the documented shape is accepted. -/
theorem C42_accepted (fi : String → Option String) (v : Version) (attr : Option AttrKind)
    (k : ArgKind) (m : Meta) (h : Fits fi v (decide (attr = some (.arg .constructor))) k m) :
    validateArg fi v attr m k = [] := by
  induction h with
  | @alone k m hk he hv hn =>
    rw [validateArg_eq, if_neg (by rintro rfl; simp [standsAlone] at hk), if_pos, he, hv]
    · rfl
    · cases k <;> simp only [standsAlone, Bool.false_eq_true] at hk <;> cases v <;> rfl
  | @value k m x hx hf hn =>
    have hk : takesValue k = true := by
      cases k <;> first | rfl | exact absurd hf id
    obtain ⟨b, hb, hiff⟩ := valueOk_iff fi v attr k m hk
    have hbt := hiff.2 ⟨x, hx, loose_of_fits hf⟩
    subst hbt
    rw [validateArg_eq, if_neg (by rintro rfl; simp [takesValue] at hk), if_neg, hb]
    · rfl
    · intro h
      rw [h] at hb
      simp [valueOk] at hb
  | @leaf k m opts hs he hv hn =>
    rw [validateArg_eq]
    cases k <;> simp only [nestedSpec, reduceCtorEq, Option.some.injEq, Prod.mk.injEq] at hs <;>
      cases v <;>
      first
      | (simp at hs; done)
      | (simp [expectedValue, ValueKind.ofArgV5, ValueKind.ofArg, valueOk, hv, hn, nestedOptions])
  | @nested k m opts r m' hs he hv hn hk hf ih =>
    rw [validateArg_eq]
    cases k <;> simp only [nestedSpec, reduceCtorEq, Option.some.injEq, Prod.mk.injEq] at hs <;>
      obtain ⟨rfl, rfl⟩ := hs <;> cases v <;>
      simp only [expectedValue, ValueKind.ofArgV5, ValueKind.ofArg, valueOk, hv, hn, nestedOptions,
        reduceCtorEq, if_false, hk, if_true] <;> exact ih

/-- Everything accepted is of the documented shape.

Missing for the full claim: nested arguments where none belongs, and a dangling `=` or malformed
value where a nested argument belongs, are not looked at (`C42_negation`); white space in a signature
topic counts like digits (`C42_negation_topic`). -/
theorem C42_shape_partial (fi : String → Option String) (v : Version) (attr : Option AttrKind)
    (k : ArgKind) (m : Meta) (ht : Tidy k m) (h : validateArg fi v attr m k = []) :
    Fits fi v (decide (attr = some (.arg .constructor))) k m := by
  induction ht with
  | @flat k m hs hn hu =>
    rcases kinds_cases k with rfl | hk | hk | hk
    · rw [validateArg_eq] at h; simp at h
    · rw [validateArg_eq, if_neg (by rintro rfl; simp [standsAlone] at hk), if_pos
        (by cases k <;> simp only [standsAlone, Bool.false_eq_true] at hk <;> cases v <;> rfl)] at h
      refine .alone hk ?_ ?_ hn
      · cases he : m.eq with
        | none => rfl
        | some e => rw [he] at h; simp at h
      · cases hv : m.value with
        | none => rfl
        | ok x => rw [hv] at h; simp [MetaOpt.isSome] at h
        | err x => rw [hv] at h; simp [MetaOpt.isSome] at h
    · obtain ⟨b, hb, hiff⟩ := valueOk_iff fi v attr k m hk
      rw [validateArg_eq, if_neg (by rintro rfl; simp [takesValue] at hk), if_neg
        (by intro h; rw [h] at hb; simp [valueOk] at hb), hb] at h
      cases b with
      | false => simp at h
      | true =>
        obtain ⟨x, hx, hf⟩ := hiff.1 rfl
        exact .value hx (fits_of_loose hf fun hk' s => hu hk' x s hx) hn
    · rw [hs] at hk; simp at hk
  | @leaf k m o hs he hv hn =>
    rw [validateArg_eq] at h
    cases hval : m.value with
    | ok x =>
      rw [hval] at h
      cases k <;> simp only [nestedSpec, reduceCtorEq, Option.some.injEq] at hs <;> cases v <;>
        simp [expectedValue, ValueKind.ofArgV5, ValueKind.ofArg, valueOk] at h
    | err x => exact absurd hval (hv x)
    | none =>
      rw [hval, hn] at h
      cases k <;> simp only [nestedSpec, reduceCtorEq, Option.some.injEq] at hs <;> cases v <;>
        simp [expectedValue, ValueKind.ofArgV5, ValueKind.ofArg, valueOk, nestedOptions] at h <;>
        exact .leaf rfl he hval hn
  | @nested k m m' o hs he hv hn _ ih =>
    rw [validateArg_eq] at h
    cases hval : m.value with
    | ok x =>
      rw [hval] at h
      cases k <;> simp only [nestedSpec, reduceCtorEq, Option.some.injEq] at hs <;> cases v <;>
        simp [expectedValue, ValueKind.ofArgV5, ValueKind.ofArg, valueOk] at h
    | err x => exact absurd hval (hv x)
    | none =>
      obtain ⟨h1, h2, h3, h4⟩ := expected_nested fi v attr k m o hs
      rw [if_neg h1, if_neg h2, h3, hval, hn] at h
      dsimp only at h
      by_cases hmem : (Arg.ofMeta m').kind ∈ (nestedOptions (expectedValue v attr k)).1
      · rw [if_pos hmem] at h
        exact .nested (opts := o.1) (r := o.2) hs he hval hn (h4 ▸ hmem) (ih h)
      · rw [if_neg hmem] at h
        simp at h

/-- At most one diagnostic is given for an argument. It is a warning if the argument is unknown
but named, and an error otherwise. -/
theorem C42_severity (fi : String → Option String) (v : Version) (attr : Option AttrKind)
    (m : Meta) (k : ArgKind) :
    (validateArg fi v attr m k).length ≤ 1 ∧
      ∀ d ∈ validateArg fi v attr m k, (d.severity = .warning ↔
        k = .unknown ∧ Named m) := by
  rw [← nameIsEmpty_iff]
  have hlen : ∀ (m : Meta) (k : ArgKind), (validateArg fi v attr m k).length ≤ 1 ∧
      (k ≠ .unknown → ∀ d ∈ validateArg fi v attr m k, d.severity = .error) := by
    have : ∀ (n : Nat) (m : Meta) (k : ArgKind), sizeOf m ≤ n →
        (validateArg fi v attr m k).length ≤ 1 ∧
        (k ≠ .unknown → ∀ d ∈ validateArg fi v attr m k, d.severity = .error) := by
      intro n
      induction n with
      | zero => intro m k h; cases m; simp at h
      | succ n ih =>
        have rest : ∀ (m : Meta) (k : ArgKind), sizeOf m ≤ n + 1 →
            (nestedPart fi v attr k m).length ≤ 1 ∧
            (k ≠ .unknown → ∀ d ∈ nestedPart fi v attr k m, d.severity = .error) := by
          intro m k hs
          unfold nestedPart
          cases hn : m.nested with
          | none =>
            dsimp only
            split <;> simp [ArgIssue.severity]
          | some m' =>
            dsimp only
            have hlt : sizeOf m' ≤ n := by
              cases m with
              | mk a b c d e f =>
                have hd : d = some m' := hn
                subst hd
                simp at hs
                omega
            by_cases hmem : (Arg.ofMeta m').kind ∈ (nestedOptions (expectedValue v attr k)).1
            · rw [if_pos hmem]
              have hne : (Arg.ofMeta m').kind ≠ .unknown := by
                intro hu
                rw [hu] at hmem
                exact unknown_not_option v attr k hmem
              exact ⟨(ih m' _ hlt).1, fun _ => (ih m' _ hlt).2 hne⟩
            · rw [if_neg hmem]
              simp [ArgIssue.severity]
        intro m k hs
        rw [validateArg_eq]
        by_cases hk : k = .unknown
        · rw [if_pos hk]
          exact ⟨by simp, fun h => absurd hk h⟩
        · rw [if_neg hk]
          split
          · split <;> simp [ArgIssue.severity]
          · cases valueOk fi (expectedValue v attr k) m with
            | some b => cases b <;> simp [ArgIssue.severity]
            | none =>
              dsimp only
              cases m.value with
              | ok x => simp [ArgIssue.severity]
              | err x => exact rest m k hs
              | none => exact rest m k hs
    exact fun m k => this _ m k (Nat.le_refl _)
  refine ⟨(hlen m k).1, fun d hd => ?_⟩
  by_cases hk : k = .unknown
  · subst hk
    rw [validateArg_eq, if_pos rfl] at hd
    cases hn : nameIsEmpty m <;> rw [hn] at hd <;> simp at hd <;> subst hd <;>
      simp [ArgIssue.severity]
  · simp [(hlen m k).2 hk d hd, hk]

/-- A meta item with a name for examples. -/
def exItem (name : String) (eq : Bool) (value : Option (ValueTok × String)) (nested : Option Meta) :
    Meta :=
  .mk (.ok ⟨.tok .ident name, 0⟩) (if eq then some ⟨.tok .eq "=", 0⟩ else none)
    (match value with | some (k, t) => .ok ⟨[], k, t⟩ | none => .none) nested 0 (some 0)

/-- The full claim fails: `message(x)`, `selector = 1(x)` and `backend(node =)` are accepted, and
an unknown argument is accepted with a warning only. -/
theorem C42_negation (fi : String → Option String) (ctor : Bool) :
    (validateArg fi .v5 none (exItem "message" false none (some (exItem "x" false none none)))
        .message = [] ∧
      ¬ Fits fi .v5 ctor .message
        (exItem "message" false none (some (exItem "x" false none none)))) ∧
    (validateArg fi .v5 none (exItem "selector" true (some (.intNumber, "1"))
        (some (exItem "x" false none none))) .selector = [] ∧
      ¬ Fits fi .v5 ctor .selector (exItem "selector" true (some (.intNumber, "1"))
        (some (exItem "x" false none none)))) ∧
    (validateArg fi .v5 none (exItem "backend" false none (some (exItem "node" true none none)))
        .backend = [] ∧
      ¬ Fits fi .v5 ctor .backend
        (exItem "backend" false none (some (exItem "node" true none none)))) ∧
    (∀ d ∈ validateArg fi .v5 none (exItem "mesage" false none none) .unknown,
      d.severity ≠ .error) := by
  refine ⟨⟨?_, ?_⟩, ⟨?_, ?_⟩, ⟨?_, ?_⟩, ?_⟩
  · rw [validateArg_eq]; rfl
  · intro h
    cases h with
    | alone _ _ _ hn => cases hn
    | value _ hf _ => exact hf
    | leaf hs _ _ _ => cases hs
    | nested hs _ _ _ _ _ => cases hs
  · rw [validateArg_eq]; rfl
  · intro h
    cases h with
    | alone hk _ _ _ => cases hk
    | value _ _ hn => cases hn
    | leaf hs _ _ _ => cases hs
    | nested hs _ _ _ _ _ => cases hs
  · rw [validateArg_eq]
    have : (Arg.ofMeta (exItem "node" true none none)).kind = .node := by decide
    simp only [exItem, Meta.value, Meta.nested] at this ⊢
    rw [this]
    simp [expectedValue, ValueKind.ofArgV5, valueOk, nestedOptions]
    rw [validateArg_eq]
    rfl
  · have hk : (Arg.ofMeta (exItem "node" true none none)).kind = .node := by decide
    intro h
    cases h with
    | alone hk _ _ _ => cases hk
    | value _ hf _ => exact hf
    | leaf _ _ _ hn => cases hn
    | nested _ _ _ hn _ hf =>
      cases hn
      rw [hk] at hf
      cases hf with
      | alone hk _ _ _ => cases hk
      | value _ hf _ => exact hf
      | leaf _ he _ _ => cases he
      | nested _ he _ _ _ _ => cases he
  · rw [validateArg_eq, if_pos rfl]
    decide

/-- 64 spaces are accepted as the 32 bytes of a signature topic. -/
theorem C42_negation_topic (fi : String → Option String) (v : Version) (attr : Option AttrKind)
    (ctor : Bool) : ∃ m : Meta, m = exItem "signature_topic" true (some (.string,
        "\"                                                                \"")) none ∧
      validateArg fi v attr m .signatureTopic = [] ∧ ¬ Fits fi v ctor .signatureTopic m := by
  refine ⟨_, rfl, ?_, ?_⟩
  · rw [validateArg_eq, if_neg (by decide)]
    have he : expectedValue v attr .signatureTopic = .string .hex := by cases v <;> rfl
    rw [he]
    rfl
  · intro h
    cases h with
    | alone hk _ _ _ => cases hk
    | value hv hf _ =>
      cases hv
      obtain ⟨s, hs, h1, -⟩ := hf
      cases hs
      exact absurd (h1 ' ' (by decide +kernel)) (by decide)
    | leaf hs _ _ _ => cases hs
    | nested hs _ _ _ _ _ => cases hs

/-! Non-vacuity: `selector = @` in a message, `backend(runtime_only(sandbox = S))`, and
rejected ones. -/

example (fi : String → Option String) :
    Fits fi .v5 (decide (some (AttrKind.arg .message) = some (.arg .constructor))) .selector
      (exItem "selector" true (some (.at, "@")) none) :=
  .value rfl (.inr (.inr ⟨rfl, rfl, rfl⟩)) rfl

example (fi : String → Option String) :
    Fits fi .v5 false .backend (exItem "backend" false none (some (exItem "runtime_only" false none
      (some (exItem "sandbox" true (some (.path, "S")) none))))) :=
  have h : (Arg.ofMeta (exItem "runtime_only" false none
      (some (exItem "sandbox" true (some (.path, "S")) none)))).kind = .runtimeOnly := by decide
  have h' : (Arg.ofMeta (exItem "sandbox" true (some (.path, "S")) none)).kind = .sandbox := by
    decide
  .nested rfl rfl rfl rfl (by rw [h]; decide) (by
    rw [h]
    exact .nested rfl rfl rfl rfl (by rw [h']; decide) (by rw [h']; exact .value rfl rfl rfl))

example (fi : String → Option String) :
    Tidy .selector (exItem "selector" true (some (.intNumber, "4294967296")) none) ∧
    validateArg fi .v5 none (exItem "selector" true (some (.intNumber, "4294967296")) none)
      .selector = [.badValue] :=
  ⟨.flat rfl rfl (fun h => nomatch h), by rw [validateArg_eq]; rfl⟩

end Verif.Analyzer
