import Verif.Spec.ErrorHandling
import Verif.Proofs.Readme
/-! # The rule of octal numbers of the README: what it matches -/

namespace Joeson
open RuleText hiding decimal
open Arith

variable {V : Type} {P : PureOps V} {N : Nat} {L : List GLine} {d : Nat}

theorem Yields.moreClsMin {C : UInt8 → Prop} {re : Regex} (hre : FindsOne C re) {s : Bytes} (hs : NoneOf C s) {mn : Nat} : ∀ (w : Bytes) (vs : List V), (∀ b ∈ w, C b) → mn ≤ vs.length →
    Yields P N L d (.more (.re "" re) none mn none vs) (w ++ s) (.ok (some (P.arr (vs ++ w.map fun b => P.str [b]), s)))
  | [], vs, _, hm => by
    have := Yields.noMore (P := P) (N := N) (L := L) (d := d) (mn := mn) (vs := vs) Room.none .sepNone (Yields.pclsMiss hre (.inr rfl) hs)
    unfold vstop at this
    rw [if_neg (by omega)] at this
    simpa using this
  | b :: w, vs, hw, hm => by
    have h := Yields.moreClsMin (mn := mn) hre hs w (vs ++ [P.str [b]]) (fun x hx => hw x (List.mem_cons_of_mem _ hx)) (by rw [List.length_append]; omega)
    simpa using Yields.more (P := P) Room.none .sepNone (Yields.pcls hre (.inr rfl) (hw b (List.mem_cons_self ..)) _) h

/-- A class repeated at least once. -/
theorem Yields.plusCls {C : UInt8 → Prop} {re : Regex} (hre : FindsOne C re) {h : Bool} {lab : String} (hl : h = true ∨ lab = "") {w s : Bytes} (hn : w ≠ []) (hw : ∀ b ∈ w, C b) (hs : NoneOf C s) :
    Yields P N L d (.part h (.rep lab (.re "" re) none 1 none)) (w ++ s) (.ok (some (P.arr (w.map fun b => P.str [b]), s))) := by
  refine Yields.bare hl ?_
  match w, hw, hn with
  | b :: w, hw, _ =>
    exact .rep (Yields.pcls hre (.inr rfl) (hw b (List.mem_cons_self ..)) _) (Yields.moreClsMin hre hs w _ (fun x hx => hw x (List.mem_cons_of_mem _ hx)) (by simp))

theorem Yields.plusClsMiss {C : UInt8 → Prop} {re : Regex} (hre : FindsOne C re) {h : Bool} {lab : String} (hl : h = true ∨ lab = "") {s : Bytes} (hs : NoneOf C s) :
    Yields P N L d (.part h (.rep lab (.re "" re) none 1 none)) s (.ok none) :=
  Yields.bare hl (.repMiss (P := P) (mn := 1) (Yields.pclsMiss hre (.inr rfl) hs))

variable {u : UserString} {r : Regex}

theorem octal_vp (r : Regex) : (octalE r).vp = .seq "" [.lit "" [0x5C], .rep "" (.re "" r) none 1 none] := by kernel_rfl
theorem octalTop_vp : octalTopE.vp = .name "" "octal_byte_value" false := by kernel_rfl

theorem octal_digit {c : UInt8} (h : IsOctal c) : IsDigit c := ⟨h.1, UInt8.le_trans h.2 (show (0x37 : UInt8) ≤ 0x39 by decide)⟩

theorem decimal_lt (ds : Bytes) (h : ∀ c ∈ ds, IsDigit c) : decimal ds < 10 ^ ds.length := by
  have key : ∀ (ds : Bytes) (n m : Nat), (∀ c ∈ ds, IsDigit c) → n < m → ds.foldl (fun n c => 10 * n + (c.toNat - 0x30)) n < m * 10 ^ ds.length := by
    intro ds
    induction ds with
    | nil => intro n m _ h; simpa using h
    | cons c ds ih =>
      intro n m hd h
      have h2 : c.toNat - 0x30 ≤ 9 := by
        have := (hd c (List.mem_cons_self ..)).2
        omega
      have := ih (10 * n + (c.toNat - 0x30)) (m * 10) (fun x hx => hd x (List.mem_cons_of_mem _ hx)) (by omega)
      rw [List.foldl_cons, List.length_cons, Nat.pow_succ']
      rw [Nat.mul_assoc] at this
      exact this
  have := key ds 0 1 h (by omega)
  rwa [Nat.one_mul] at this

theorem octalCb_eq {ds : Bytes} (hd : ∀ c ∈ ds, IsOctal c) : octalCb u (.arr (ds.map fun b => .str [b])) = octalResult ds := by
  unfold octalCb octalResult
  simp only [List.length_map]
  by_cases h1 : ds.length < 3
  · rw [if_pos h1, if_pos h1]
  · rw [if_neg h1, if_neg h1]
    by_cases h2 : ds.length > 3
    · rw [if_pos h2, if_pos h2]
    · rw [if_neg h2, if_neg (by omega)]
      have hl : ds.length = 3 := by omega
      have hdd : ∀ c ∈ ds, IsDigit c := fun c hc => octal_digit (hd c hc)
      have hlt := decimal_lt ds hdd
      rw [hl] at hlt
      have hne : ds ≠ [] := by rintro rfl; simp at hl
      simp only [concat_bytes, newNativeIntFrom, nativeIntFrom, atoi_decimal hne hdd, if_pos (show decimal ds < 2 ^ 63 by omega)]
      by_cases h3 : 255 < decimal ds
      · rw [if_pos h3]
        show (if ((decimal ds : Nat) : Int) > 255 then _ else _) = _
        rw [if_pos (by omega)]
      · rw [if_neg h3]
        show (if ((decimal ds : Nat) : Int) > 255 then _ else _) = _
        rw [if_neg (by omega)]
        rfl

theorem octal_rule (hr : FindsOne IsOctal r) (t : Bytes) : Yields (octalOps u) N L (d + 1) (.rule (some 0) (.text (octalE r))) t (octalMeaning t) := by
  have hf : formOf [VP.lit "" [0x5C], .rep "" (.re "" r) none 1 none] = .single := rfl
  match t with
  | [] =>
    refine Yields.rtext (octal_vp r) (r := .ok none) (Yields.bare (.inr rfl) (.seq (.itemsMiss (Yields.plitMiss ?_))))
    intro s' h; cases h
  | c :: s =>
    by_cases hc : c = 0x5C
    · subst hc
      rw [octalMeaning]
      have hsplit : s.takeWhile (fun c => decide (IsOctal c)) ++ s.dropWhile (fun c => decide (IsOctal c)) = s := List.takeWhile_append_dropWhile
      have hall : ∀ c ∈ s.takeWhile (fun c => decide (IsOctal c)), IsOctal c := fun c hc => by simpa using (List.all_eq_true.mp List.all_takeWhile c hc)
      have hnone : NoneOf IsOctal (s.dropWhile fun c => decide (IsOctal c)) := by
        intro c s' h hc
        have := List.head?_dropWhile_not (fun c => decide (IsOctal c)) s
        rw [h] at this
        simp [hc] at this
      generalize hds : s.takeWhile (fun c => decide (IsOctal c)) = ds at *
      generalize hrest : s.dropWhile (fun c => decide (IsOctal c)) = rest at *
      by_cases hn : ds = []
      · rw [if_pos hn]
        rw [hn, List.nil_append] at hsplit
        rw [← hsplit]
        refine Yields.rtext (octal_vp r) (r := .ok none) (Yields.bare (.inr rfl) (.seq ?_))
        rw [hf]
        exact .itemsPut (Yields.plit (b := [0x5C])) rfl (.itemsMiss (Yields.plusClsMiss hr (.inl rfl) hnone))
      · rw [if_neg hn, ← octalCb_eq (u := u) hall, ← hsplit]
        have hy : Yields (octalOps u) N L d (.part false (.seq "" [.lit "" [0x5C], .rep "" (.re "" r) none 1 none])) (0x5C :: (ds ++ rest))
            (.ok (some (.arr (ds.map fun b => .str [b]), rest))) := by
          refine Yields.bare (.inr rfl) (.seq ?_)
          rw [hf]
          refine .itemsPut (Yields.plit (b := [0x5C])) rfl ?_
          refine .itemsPut (Yields.plusCls hr (.inl rfl) hn hall hnone) rfl ?_
          exact .itemsEnd rfl
        have := Yields.rtext (cb := some 0) (octal_vp r) hy
        cases hcb : octalCb u (.arr (ds.map fun b => .str [b])) with
        | error e =>
          have he : called (octalOps u) N (some 0) (.ok (some (.arr (ds.map fun b => .str [b]), rest))) = .error e := by
            simp only [called, octalOps, treePure, hcb]; rfl
          rwa [he] at this
        | ok v =>
          have he : called (octalOps u) N (some 0) (.ok (some (.arr (ds.map fun b => .str [b]), rest))) = .ok (some (v, rest)) := by
            simp only [called, octalOps, treePure, hcb]; rfl
          rwa [he] at this
    · have : octalMeaning (c :: s) = .ok none := by
        unfold octalMeaning
        split
        · rename_i h; cases h; exact absurd rfl hc
        · rfl
      rw [this]
      refine Yields.rtext (octal_vp r) (r := .ok none) (Yields.bare (.inr rfl) (.seq (.itemsMiss (Yields.plitMiss ?_))))
      intro s' h
      cases h
      exact hc rfl

theorem octal_yields (hr : FindsOne IsOctal r) (t : Bytes) : Yields (octalOps u) N (octalG r) 2 (.lines (octalG r)) t (octalMeaning t) := by
  have hm : ("octal_byte_value", some 0, Body.text (octalE r)) ∈ rulesOf (octalG r) := by simp [octalG, rulesOf, GLine.rules]
  have h := Yields.rtext (cb := none) octalTop_vp (Yields.call (q := false) (h := false) (lab := "") (.inr rfl) hm (octal_rule (u := u) (N := N) (L := octalG r) (d := 0) hr t))
  have he : called (octalOps u) N none (octalMeaning t) = octalMeaning t := by
    cases octalMeaning t with
    | error e => rfl
    | ok o => rcases o with _ | ⟨v, s⟩ <;> rfl
  rw [he] at h
  by_cases hn : octalMeaning t = .ok none
  · rw [hn] at h ⊢
    exact .altMiss h (.incl .linesEnd)
  · exact .altDone h hn

end Joeson
