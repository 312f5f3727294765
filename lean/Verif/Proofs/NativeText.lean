import Verif.Spec.NativeText
import Verif.Props.Native
import Verif.Proofs.Utf8b
/-!
# Reading printed values back
-/

namespace Joeson
open Spec

/-- A text that is empty or begins with a sign. -/
def SignFirst (s : Bytes) : Prop := ∀ x, s.head? = some x → x ∈ signs

theorem word_inj : ∀ {a a' b b' : Bytes}, NoSigns a → NoSigns a' → SignFirst b → SignFirst b' → a ++ b = a' ++ b' → a = a' ∧ b = b'
  | [], [], _, _, _, _, _, _, h => ⟨rfl, h⟩
  | [], x :: a', b, b', _, h2, h3, _, h => by
    have h : b = x :: (a' ++ b') := h
    exact absurd (h3 x (by rw [h]; rfl)) (h2 x List.mem_cons_self)
  | x :: a, [], b, b', h1, _, _, h4, h => by
    have h : x :: (a ++ b) = b' := h
    exact absurd (h4 x (by rw [← h]; rfl)) (h1 x List.mem_cons_self)
  | x :: a, y :: a', b, b', h1, h2, h3, h4, h => by
    have e : x = y := by injection h
    have e' := word_inj (fun c hc => h1 c (List.mem_cons_of_mem _ hc)) (fun c hc => h2 c (List.mem_cons_of_mem _ hc)) h3 h4 (by injection h)
    exact ⟨by rw [e, e'.1], e'.2⟩

theorem char_scalar (c : Char) : Scalar c.toNat := by
  have h := c.valid
  unfold Scalar
  unfold UInt32.isValidChar Nat.isValidChar at h
  have : c.toNat = c.val.toNat := rfl
  omega

theorem keyBytes_inj {k k' : String} (h : keyBytes k = keyBytes k') : k = k' := by
  have go : ∀ l l' : List Char, (l.flatMap fun c => encodeRune c.toNat) = (l'.flatMap fun c => encodeRune c.toNat) → l = l' := by
    intro l
    induction l with
    | nil =>
      intro l' h
      cases l' with
      | nil => rfl
      | cons c l' =>
        rw [List.flatMap_nil, List.flatMap_cons] at h
        exact absurd (List.append_eq_nil_iff.mp h.symm).1 (encodeRune_ne_nil _)
    | cons c l ih =>
      intro l' h
      cases l' with
      | nil =>
        rw [List.flatMap_nil, List.flatMap_cons] at h
        exact absurd (List.append_eq_nil_iff.mp h).1 (encodeRune_ne_nil _)
      | cons c' l' =>
        rw [List.flatMap_cons, List.flatMap_cons] at h
        have d := decodeRune_encodeRune (char_scalar c) (l.flatMap fun c => encodeRune c.toNat)
        rw [h, decodeRune_encodeRune (char_scalar c')] at d
        have e : c.toNat = c'.toNat := (congrArg Prod.fst d).symm
        have e' : c = c' := Char.toNat_inj.mp e
        subst e'
        rw [ih l' (List.append_cancel_left h)]
  exact String.ext (go _ _ h)

/-- A text that is empty or begins with `]`, `,` or `}`. -/
def EndFirst (s : Bytes) : Prop := ∀ x, s.head? = some x → x ∈ [(0x5D : UInt8), 0x2C, 0x7D]

theorem EndFirst.sign {s : Bytes} (h : EndFirst s) : SignFirst s := fun x hx => by
  have := h x hx
  simp only [List.mem_cons, List.not_mem_nil, or_false] at this
  rcases this with rfl | rfl | rfl <;> decide

theorem numeral_noSigns {s : Bytes} {n : Int} (h : Numeral s n) : s ≠ [] ∧ NoSigns s := by
  obtain ⟨sign, ds, h1, h2, rfl, h3⟩ := h
  have hd : ∀ b ∈ ds.map digitByte, b ∉ signs := by
    intro b hb
    obtain ⟨d, hd, rfl⟩ := List.mem_map.mp hb
    have := h2 d hd
    have k : ∀ d : Fin 10, digitByte d.val ∉ signs := by decide
    exact k ⟨d, this⟩
  constructor
  · intro e
    exact h1 (List.map_eq_nil_iff.mp (List.append_eq_nil_iff.mp e).2)
  · intro b hb
    rcases List.mem_append.mp hb with hb | hb
    · rcases h3 with ⟨h3 | h3, -⟩ | ⟨h3, -⟩ <;> subst h3
      · cases hb
      · rw [show asc "+" = [0x2B] from by decide, List.mem_singleton] at hb; subst hb; decide
      · rw [show asc "-" = [0x2D] from by decide, List.mem_singleton] at hb; subst hb; decide
    · exact hd b hb

/-- What can be seen of the kind of a value. -/
def kindOf : Ast → Nat
  | .undef => 0
  | .arr _ => 1
  | .map _ => 2
  | _ => 3

/-- The same, in the text from the first sign on. -/
def kindAt (s : Bytes) : Nat :=
  match s.head? with
  | some 0x3C => 0
  | some 0x5B => 1
  | some 0x7B => 2
  | _ => 3

theorem kindAt_end {r : Bytes} (h : EndFirst r) : kindAt r = 3 := by
  cases r with
  | nil => rfl
  | cons b r =>
    have := h b rfl
    simp only [List.mem_cons, List.not_mem_nil, or_false] at this
    rcases this with rfl | rfl | rfl <;> rfl

/-- The printed form up to the first sign and from there on. -/
theorem parts (u : UserString) {v : Ast} (hv : Readable v) {r : Bytes} (hr : EndFirst r) :
    ∃ a b, v.string u ++ r = a ++ b ∧ NoSigns a ∧ SignFirst b ∧ kindAt b = kindOf v ∧
      (kindOf v = 3 → a = v.string u ∧ b = r) := by
  have hs : ∀ (c : UInt8) (t : Bytes), c ∈ signs → SignFirst (c :: t) := by
    intro c t hc x hx
    have : c = x := by injection hx
    exact this ▸ hc
  have hnil : NoSigns [] := fun b hb => by cases hb
  cases v with
  | undef =>
    refine ⟨[], 0x3C :: (asc "NativeUndefined>" ++ r), ?_, hnil, hs _ _ (by decide), rfl, fun h => by cases h⟩
    rw [Ast.string]
    have : asc "<NativeUndefined>" = 0x3C :: asc "NativeUndefined>" := by decide
    rw [this]; rfl
  | str s =>
    rw [Readable] at hv
    exact ⟨s, r, by rw [Ast.string], hv.2.1, hr.sign, kindAt_end hr, fun _ => ⟨by rw [Ast.string], rfl⟩⟩
  | int n =>
    exact ⟨itoa n, r, by rw [Ast.string], (numeral_noSigns (itoa_numeral n)).2, hr.sign, kindAt_end hr, fun _ => ⟨by rw [Ast.string], rfl⟩⟩
  | arr l =>
    refine ⟨[], 0x5B :: (Ast.stringList u true l ++ asc "]" ++ r), ?_, hnil, hs _ _ (by decide), rfl, fun h => by cases h⟩
    rw [Ast.string]
    have : asc "[" = [0x5B] := by decide
    rw [this]; simp only [List.append_assoc, List.cons_append, List.nil_append]
  | map kvs =>
    refine ⟨asc "NativeMap", 0x7B :: (Ast.stringKvs u true kvs ++ asc "}" ++ r), ?_, ?_, hs _ _ (by decide), rfl, fun h => by cases h⟩
    · rw [Ast.string]
      have : asc "NativeMap{" = asc "NativeMap" ++ [0x7B] := by decide
      rw [this]; simp only [List.append_assoc, List.cons_append, List.nil_append]
    · unfold NoSigns; decide
  | user t l => rw [Readable] at hv; exact hv.elim
  | error m => rw [Readable] at hv; exact hv.elim

/-- A printed value does not begin with a sign that ends one. -/
theorem string_first (u : UserString) {v : Ast} (hv : Readable v) (r : Bytes) :
    ∃ b t, v.string u ++ r = b :: t ∧ b ∉ [(0x5D : UInt8), 0x2C, 0x7D] := by
  have hw : ∀ s : Bytes, s ≠ [] → NoSigns s → ∃ b t, s ++ r = b :: t ∧ b ∉ [(0x5D : UInt8), 0x2C, 0x7D] := by
    intro s h1 h2
    cases s with
    | nil => exact absurd rfl h1
    | cons b s =>
      refine ⟨b, s ++ r, rfl, fun hb => h2 b List.mem_cons_self ?_⟩
      simp only [List.mem_cons, List.not_mem_nil, or_false] at hb
      rcases hb with rfl | rfl | rfl <;> decide
  cases v with
  | undef => exact ⟨0x3C, asc "NativeUndefined>" ++ r, by rw [Ast.string]; rfl, by decide⟩
  | str s => rw [Readable] at hv; rw [Ast.string]; exact hw s hv.1 hv.2.1
  | int n => rw [Ast.string]; exact hw _ (numeral_noSigns (itoa_numeral n)).1 (numeral_noSigns (itoa_numeral n)).2
  | arr l => exact ⟨0x5B, Ast.stringList u true l ++ asc "]" ++ r, by rw [Ast.string]; rfl, by decide⟩
  | map kvs =>
    exact ⟨0x4E, asc "ativeMap{" ++ Ast.stringKvs u true kvs ++ asc "}" ++ r, by rw [Ast.string]; rfl, by decide⟩
  | user t l => rw [Readable] at hv; exact hv.elim
  | error m => rw [Readable] at hv; exact hv.elim

theorem endFirst_list (u : UserString) (l : List Ast) (r : Bytes) : EndFirst (Ast.stringList u false l ++ 0x5D :: r) := by
  intro x hx
  cases l with
  | nil => rw [Ast.stringList] at hx; injection hx with hx; subst hx; decide
  | cons v l => rw [Ast.stringList] at hx; injection hx with hx; subst hx; decide

theorem endFirst_kvs (u : UserString) (l : List (String × Ast)) (r : Bytes) : EndFirst (Ast.stringKvs u false l ++ 0x7D :: r) := by
  intro x hx
  cases l with
  | nil => rw [Ast.stringKvs] at hx; injection hx with hx; subst hx; decide
  | cons v l => obtain ⟨k, v⟩ := v; rw [Ast.stringKvs] at hx; injection hx with hx; subst hx; decide

/-- The text of an entry does not begin with `}`. -/
theorem kvs_not_end (u : UserString) (first : Bool) {k : String} (hk : NoSigns (keyBytes k)) (v t r r' : Bytes) :
    0x7D :: r ≠ (if first then [] else asc ", ") ++ (keyBytes k ++ asc ":" ++ v) ++ t ++ 0x7D :: r' := by
  intro h
  have e := congrArg List.head? h
  cases first
  · exact absurd e (by show some (0x7D : UInt8) ≠ some 0x2C; decide)
  · rw [if_pos rfl, List.nil_append] at e
    cases hb : keyBytes k with
    | nil => rw [hb] at e; exact absurd e (by show some (0x7D : UInt8) ≠ some 0x3A; decide)
    | cons b s =>
      rw [hb] at e
      have e : some (0x7D : UInt8) = some b := e
      injection e with e
      exact absurd (by decide) (hk 0x7D (by rw [hb, e]; exact List.mem_cons_self))

mutual
theorem value_inj (u : UserString) : ∀ (v v' : Ast) (r r' : Bytes), Readable v → Readable v' → EndFirst r → EndFirst r' →
    v.string u ++ r = v'.string u ++ r' → v = v' ∧ r = r' := by
  intro v v' r r' hv hv' hr hr' h
  obtain ⟨a, b, h1, h2, h3, h4, h5⟩ := parts u hv hr
  obtain ⟨a', b', h1', h2', h3', h4', h5'⟩ := parts u hv' hr'
  have h0 := h
  rw [h1, h1'] at h0
  obtain ⟨ea, eb⟩ := word_inj h2 h2' h3 h3' h0
  have hk : kindOf v = kindOf v' := by rw [← h4, ← h4', eb]
  have h3' : kindOf v = 3 → v.string u = v'.string u ∧ r = r' := by
    intro k
    obtain ⟨k1, k2⟩ := h5 k
    obtain ⟨k3, k4⟩ := h5' (hk ▸ k)
    exact ⟨by rw [← k1, ← k3, ea], by rw [← k2, ← k4, eb]⟩
  clear h1 h1' h2 h2' h3 h4 h4' h5 h5' h0 ea eb
  match v, v', hk, h3', hv, hv', h with
  | .undef, .undef, _, _, _, _, h => exact ⟨rfl, List.append_cancel_left h⟩
  | .str s, .str s', _, h3, _, _, _ =>
    obtain ⟨e, e'⟩ := h3 rfl
    rw [Ast.string, Ast.string] at e
    exact ⟨by rw [e], e'⟩
  | .int n, .int n', _, h3, hv, hv', _ =>
    obtain ⟨e, e'⟩ := h3 rfl
    rw [Ast.string, Ast.string] at e
    rw [Readable] at hv hv'
    exact ⟨by rw [C21_injective n n' hv hv' e], e'⟩
  | .str s, .int n, _, h3, hv, _, _ =>
    obtain ⟨e, e'⟩ := h3 rfl
    rw [Ast.string, Ast.string] at e
    rw [Readable] at hv
    exact absurd (e ▸ itoa_numeral n) (hv.2.2 n)
  | .int n, .str s, _, h3, _, hv, _ =>
    obtain ⟨e, e'⟩ := h3 rfl
    rw [Ast.string, Ast.string] at e
    rw [Readable] at hv
    exact absurd (e ▸ itoa_numeral n) (hv.2.2 n)
  | .arr l, .arr l', _, _, hv, hv', h =>
    simp only [Readable] at hv hv'
    rw [Ast.string, Ast.string, List.append_assoc, List.append_assoc, List.append_assoc, List.append_assoc] at h
    obtain ⟨e, e'⟩ := list_inj u l l' true r r' hv hv' (List.append_cancel_left h)
    exact ⟨by rw [e], e'⟩
  | .map l, .map l', _, _, hv, hv', h =>
    simp only [Readable] at hv hv'
    rw [Ast.string, Ast.string, List.append_assoc, List.append_assoc, List.append_assoc, List.append_assoc] at h
    obtain ⟨e, e'⟩ := kvs_inj u l l' true r r' hv hv' (List.append_cancel_left h)
    exact ⟨by rw [e], e'⟩
theorem list_inj (u : UserString) : ∀ (l l' : List Ast) (first : Bool) (r r' : Bytes), ReadableList l → ReadableList l' →
    Ast.stringList u first l ++ 0x5D :: r = Ast.stringList u first l' ++ 0x5D :: r' → l = l' ∧ r = r'
  | [], [], first, r, r', _, _, h => by
    rw [Ast.stringList, List.nil_append, List.nil_append] at h
    exact ⟨rfl, by injection h⟩
  | [], v :: l, first, r, r', _, hv, h => by
    rw [ReadableList] at hv
    rw [Ast.stringList, Ast.stringList, List.nil_append, List.append_assoc, List.append_assoc] at h
    cases first
    · exact absurd (congrArg List.head? h) (by show some (0x5D : UInt8) ≠ some 0x2C; decide)
    · obtain ⟨b, t, hb, hb'⟩ := string_first u hv.1 (Ast.stringList u false l ++ 0x5D :: r')
      rw [if_pos rfl, List.nil_append, hb] at h
      have : (0x5D : UInt8) = b := by injection h
      exact absurd (this ▸ List.mem_cons_self) hb'
  | v :: l, [], first, r, r', hv, _, h => by
    rw [ReadableList] at hv
    rw [Ast.stringList, Ast.stringList, List.nil_append, List.append_assoc, List.append_assoc] at h
    cases first
    · exact absurd (congrArg List.head? h) (by show some (0x2C : UInt8) ≠ some 0x5D; decide)
    · obtain ⟨b, t, hb, hb'⟩ := string_first u hv.1 (Ast.stringList u false l ++ 0x5D :: r)
      rw [if_pos rfl, List.nil_append, hb] at h
      have : b = 0x5D := by injection h
      exact absurd (this ▸ List.mem_cons_self) hb'
  | v :: l, v' :: l', first, r, r', hv, hv', h => by
    rw [ReadableList] at hv hv'
    rw [Ast.stringList, Ast.stringList, List.append_assoc, List.append_assoc, List.append_assoc, List.append_assoc] at h
    obtain ⟨e1, e2⟩ := value_inj u v v' _ _ hv.1 hv'.1 (endFirst_list u l r) (endFirst_list u l' r') (List.append_cancel_left h)
    obtain ⟨e3, e4⟩ := list_inj u l l' false r r' hv.2 hv'.2 e2
    exact ⟨by rw [e1, e3], e4⟩
theorem kvs_inj (u : UserString) : ∀ (l l' : List (String × Ast)) (first : Bool) (r r' : Bytes), ReadableKvs l → ReadableKvs l' →
    Ast.stringKvs u first l ++ 0x7D :: r = Ast.stringKvs u first l' ++ 0x7D :: r' → l = l' ∧ r = r'
  | [], [], first, r, r', _, _, h => by
    rw [Ast.stringKvs, List.nil_append, List.nil_append] at h
    exact ⟨rfl, by injection h⟩
  | [], (k, v) :: l, first, r, r', _, hv, h => by
    rw [ReadableKvs] at hv
    rw [Ast.stringKvs, Ast.stringKvs, List.nil_append] at h
    exact absurd h (kvs_not_end u first hv.1 _ _ _ _)
  | (k, v) :: l, [], first, r, r', hv, _, h => by
    rw [ReadableKvs] at hv
    rw [Ast.stringKvs, Ast.stringKvs, List.nil_append] at h
    exact absurd h.symm (kvs_not_end u first hv.1 _ _ _ _)
  | (k, v) :: l, (k', v') :: l', first, r, r', hv, hv', h => by
    rw [ReadableKvs] at hv hv'
    rw [Ast.stringKvs, Ast.stringKvs] at h
    simp only [List.append_assoc] at h
    have hc : ∀ t : Bytes, SignFirst (asc ":" ++ t) := by
      intro t x hx
      have : (0x3A : UInt8) = x := by injection hx
      subst this; decide
    obtain ⟨e0, e1⟩ := word_inj hv.1 hv'.1 (hc _) (hc _) (List.append_cancel_left h)
    obtain ⟨e2, e3⟩ := value_inj u v v' _ _ hv.2.1 hv'.2.1 (endFirst_kvs u l r) (endFirst_kvs u l' r') (List.append_cancel_left e1)
    obtain ⟨e4, e5⟩ := kvs_inj u l l' false r r' hv.2.2 hv'.2.2 e3
    exact ⟨by rw [e2, e4, keyBytes_inj e0], e5⟩
end

end Joeson
