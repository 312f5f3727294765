import Verif.Spec.Values
import Verif.Props.Values2
/-!
# Lemmas to derive the value of a text, and what the library makes of it
-/

namespace Joeson
open RuleText

variable {V : Type}

/-- The grammar of these lines, built by the library with its own compiler of rule texts, answers this to this text: the
outcome of matching the lines is `r` (see `Gives`). -/
def LibGives (rx : Bytes → Option Regex) (L : List GLine) (P : PureOps V) (text : Bytes) (r : VRes V) : Prop :=
  ∃ lines m0, linesOf L = .ok lines ∧ joesonMade = .ok m0 ∧ ∃ k0, ∀ k, k0 ≤ k →
    ∃ m, grammarFromLines (compileRule rx m0.g {} k) "" lines = .ok m ∧
      ∃ k1, ∀ k', k1 ≤ k' → Gives text r (parseString (P.ops Unit) m.g {} [] k' () text).1

theorem libGives_of {rx : Bytes → Option Regex} {L : List GLine} (hg : GoodNames L) (hL : AllLines (TextOk rx L) L) {P : PureOps V} (ho : ∀ v o, P.origin v o = v)
    {text : Bytes} {d : Nat} {r : VRes V} (hd : d ≤ 1024) (h : Yields P text.length L d (.lines L) text r) : LibGives rx L P text r := by
  obtain ⟨lines, m0, h1, h2, k0, h3⟩ := C53_rule_text_values_partial rx {} rfl L hg hL ""
  refine ⟨lines, m0, h1, h2, k0, fun k' hk' => ?_⟩
  obtain ⟨m, h4, h5⟩ := h3 k' hk'
  obtain ⟨k1, h6⟩ := h5 V Unit P ho {} rfl [] (by simp) () text d _ h
  exact ⟨m, h4, k1, fun k hk => (h6 k hk).resolve_right fun h => absurd h.1 (by omega)⟩

/-- What a character class finds at the beginning of a text: one of these bytes. -/
def FindsOne (C : UInt8 → Prop) (re : Regex) : Prop :=
  (∀ c s, C c → re.find (c :: s) = some (0, 1)) ∧ ∀ s n, re.find s = some (0, n) → ∃ c s', s = c :: s' ∧ C c

/-- Does not begin with one of these bytes. -/
def NoneOf (C : UInt8 → Prop) (s : Bytes) : Prop := ∀ c s', s = c :: s' → ¬ C c

theorem NoneOf.nil {C : UInt8 → Prop} : NoneOf C [] := fun _ _ h => by cases h

variable {P : PureOps V} {N : Nat} {L : List GLine} {d : Nat}

theorem Yields.bare {h : Bool} {p : VP} {s : Bytes} {r : VRes V} (hp : h = true ∨ p.outLab = "") (hy : Yields P N L d (.core h p) s r) :
    Yields P N L d (.part h p) s r := by
  have : own P h p r = r := by
    match r with
    | .error e => rfl
    | .ok none => rfl
    | .ok (some (v, s')) => rcases hp with rfl | hp <;> simp [own, *]
  exact this ▸ .part hy

theorem Yields.plit {h : Bool} {b s : Bytes} : Yields P N L d (.part h (.lit "" b)) (b ++ s) (.ok (some (P.str b, s))) :=
  Yields.bare (.inr rfl) .lit

theorem Yields.plitMiss {h : Bool} {b s : Bytes} (hs : ∀ s', s ≠ b ++ s') : Yields P N L d (.part h (.lit "" b)) s (.ok none) :=
  Yields.bare (.inr rfl) (.litMiss hs)

theorem Yields.pcls {C : UInt8 → Prop} {re : Regex} (hre : FindsOne C re) {h : Bool} {lab : String} (hl : h = true ∨ lab = "") {c : UInt8} (hc : C c) (s : Bytes) :
    Yields P N L d (.part h (.re lab re)) (c :: s) (.ok (some (P.str [c], s))) :=
  Yields.bare hl (.re (n := 1) (hre.1 c s hc))

theorem Yields.pclsMiss {C : UInt8 → Prop} {re : Regex} (hre : FindsOne C re) {h : Bool} {lab : String} (hl : h = true ∨ lab = "") {s : Bytes} (hs : NoneOf C s) :
    Yields P N L d (.part h (.re lab re)) s (.ok none) := by
  refine Yields.bare hl (.reMiss fun n hn => ?_)
  obtain ⟨c, s', rfl, hc⟩ := hre.2 s n hn
  exact hs _ _ rfl hc

theorem Room.none {n : Nat} : Room none n := fun m h => by cases h

theorem Yields.moreCls {C : UInt8 → Prop} {re : Regex} (hre : FindsOne C re) {s : Bytes} (hs : NoneOf C s) : ∀ (w : Bytes) (vs : List V), (∀ b ∈ w, C b) →
    Yields P N L d (.more (.re "" re) none 0 none vs) (w ++ s) (.ok (some (P.arr (vs ++ w.map fun b => P.str [b]), s)))
  | [], vs, _ => by
    simpa [vstop] using Yields.noMore (P := P) (N := N) (L := L) (d := d) (mn := 0) (vs := vs) Room.none .sepNone (Yields.pclsMiss hre (.inr rfl) hs)
  | b :: w, vs, hw => by
    have h := Yields.moreCls hre hs w (vs ++ [P.str [b]]) fun x hx => hw x (List.mem_cons_of_mem _ hx)
    simpa using Yields.more (P := P) Room.none .sepNone (Yields.pcls hre (.inr rfl) (hw b (List.mem_cons_self ..)) _) h

/-- A class repeated. -/
theorem Yields.repCls {C : UInt8 → Prop} {re : Regex} (hre : FindsOne C re) {h : Bool} {lab : String} (hl : h = true ∨ lab = "") {w s : Bytes} (hw : ∀ b ∈ w, C b) (hs : NoneOf C s) :
    Yields P N L d (.part h (.rep lab (.re "" re) none 0 none)) (w ++ s) (.ok (some (P.arr (w.map fun b => P.str [b]), s))) := by
  refine Yields.bare hl ?_
  match w, hw with
  | [], _ => exact .repMiss (P := P) (mn := 0) (Yields.pclsMiss hre (.inr rfl) hs)
  | b :: w, hw => exact .rep (Yields.pcls hre (.inr rfl) (hw b (List.mem_cons_self ..)) _) (Yields.moreCls hre hs w _ fun x hx => hw x (List.mem_cons_of_mem _ hx))

/-- A rule that is a text. -/
theorem Yields.rtext {cb : Option Nat} {e : Expr} {p : VP} (hp : e.vp = p) {s : Bytes} {r : VRes V} (hy : Yields P N L d (.part false p) s r) :
    Yields P N L (d + 1) (.rule cb (.text e)) s (called P N cb r) := .text (hp ▸ hy)

/-- A rule called by its name. -/
theorem Yields.call {h : Bool} {lab nm : String} {q : Bool} {cb : Option Nat} {b : Body} (hl : h = true ∨ lab = "") (hm : (nm, cb, b) ∈ rulesOf L) {s : Bytes} {r : VRes V}
    (hy : Yields P N L d (.rule cb b) s r) : Yields P N L d (.part h (.name lab nm q)) s r :=
  Yields.bare hl (.name hm hy)

/-! ## Characters -/

/-- What a character class finds at the beginning of a text: one of these characters, if the text begins with a character;
nothing else than what begins with one of `B`. -/
def FindsRune (C : Nat → Prop) (B : UInt8 → Prop) (re : Regex) : Prop :=
  (∀ r s, Spec.Scalar r → C r → re.find (Spec.utf8 [r] ++ s) = some (0, (Spec.utf8 [r]).length)) ∧
    ∀ s n, re.find s = some (0, n) → ∃ c s', s = c :: s' ∧ B c

theorem Yields.prune {C : Nat → Prop} {B : UInt8 → Prop} {re : Regex} (hre : FindsRune C B re) {h : Bool} {lab : String} (hl : h = true ∨ lab = "") {c : Nat} (hs : Spec.Scalar c) (hc : C c)
    (s : Bytes) : Yields P N L d (.part h (.re lab re)) (Spec.utf8 [c] ++ s) (.ok (some (P.str (Spec.utf8 [c]), s))) := by
  have := Yields.re (P := P) (N := N) (L := L) (d := d) (h := h) (lab := lab) (hre.1 c s hs hc)
  rw [List.take_left' rfl, List.drop_left' rfl] at this
  exact Yields.bare hl this

theorem Yields.pruneMiss {C : Nat → Prop} {B : UInt8 → Prop} {re : Regex} (hre : FindsRune C B re) {h : Bool} {lab : String} (hl : h = true ∨ lab = "") {s : Bytes} (hs : NoneOf B s) :
    Yields P N L d (.part h (.re lab re)) s (.ok none) := by
  refine Yields.bare hl (.reMiss fun n hn => ?_)
  obtain ⟨c, s', rfl, hc⟩ := hre.2 s n hn
  exact hs _ _ rfl hc

theorem utf8_split (c : Nat) (w : List Nat) : Spec.utf8 (c :: w) = Spec.utf8 [c] ++ Spec.utf8 w := by
  simp [Spec.utf8]

theorem Yields.moreRune {C : Nat → Prop} {B : UInt8 → Prop} {re : Regex} (hre : FindsRune C B re) {s : Bytes} (hs : NoneOf B s) : ∀ (w : List Nat) (vs : List V),
    (∀ c ∈ w, Spec.Scalar c ∧ C c) →
    Yields P N L d (.more (.re "" re) none 0 none vs) (Spec.utf8 w ++ s) (.ok (some (P.arr (vs ++ w.map fun c => P.str (Spec.utf8 [c])), s)))
  | [], vs, _ => by
    simpa [vstop, Spec.utf8] using Yields.noMore (P := P) (N := N) (L := L) (d := d) (mn := 0) (vs := vs) Room.none .sepNone (Yields.pruneMiss hre (.inr rfl) hs)
  | b :: w, vs, hw => by
    have h := Yields.moreRune hre hs w (vs ++ [P.str (Spec.utf8 [b])]) fun x hx => hw x (List.mem_cons_of_mem _ hx)
    have hb := hw b (List.mem_cons_self ..)
    rw [utf8_split, List.append_assoc]
    simpa using Yields.more (P := P) Room.none .sepNone (Yields.prune hre (.inr rfl) hb.1 hb.2 _) h

theorem Yields.repRune {C : Nat → Prop} {B : UInt8 → Prop} {re : Regex} (hre : FindsRune C B re) {h : Bool} {lab : String} (hl : h = true ∨ lab = "") {w : List Nat} {s : Bytes}
    (hw : ∀ c ∈ w, Spec.Scalar c ∧ C c) (hs : NoneOf B s) :
    Yields P N L d (.part h (.rep lab (.re "" re) none 0 none)) (Spec.utf8 w ++ s) (.ok (some (P.arr (w.map fun c => P.str (Spec.utf8 [c])), s))) := by
  refine Yields.bare hl ?_
  match w, hw with
  | [], _ => exact .repMiss (P := P) (mn := 0) (Yields.pruneMiss hre (.inr rfl) hs)
  | b :: w, hw =>
    have hb := hw b (List.mem_cons_self ..)
    rw [utf8_split, List.append_assoc]
    exact .rep (Yields.prune hre (.inr rfl) hb.1 hb.2 _) (Yields.moreRune hre hs w _ fun x hx => hw x (List.mem_cons_of_mem _ hx))

end Joeson
