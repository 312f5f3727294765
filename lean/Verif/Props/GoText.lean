import Verif.Spec.GoText
import Verif.Props.TokenStream
/-!
# C80: what a grammar sees of Go code
-/

namespace Joeson
open Spec

variable {V H : Type}

theorem goTokens_same : ∀ (l l' : List ScanTok) (n n' : Int) (prev : Bytes), SameTokens l l' →
    (goTokensLoop n prev l).map (·.repr) = (goTokensLoop n' prev l').map (·.repr)
  | [], [], _, _, _, _ => rfl
  | [], _ :: _, _, _, _, h => by simp [SameTokens] at h
  | _ :: _, [], _, _, _, h => by simp [SameTokens] at h
  | t :: l, t' :: l', n, n', prev, h => by
    simp only [SameTokens, List.map_cons, List.cons.injEq, Prod.mk.injEq] at h
    obtain ⟨⟨h1, h2, h3⟩, h4⟩ := h
    have ht : goTokenText prev t = goTokenText prev t' := by
      unfold goTokenText
      rw [h1, h2, h3]
    simp only [goTokensLoop, List.map_cons, ht, List.cons.injEq, true_and]
    exact goTokens_same l l' _ _ _ h4

/-- The scanner finds tokens inside the source. -/
def Scanner.Inside (s : Scanner) : Prop := ∀ t ∈ s.toks, 0 ≤ t.offset

theorem goTokens_orig : ∀ (l : List ScanTok) (n : Int) (prev : Bytes), (∀ t ∈ l, 0 ≤ t.offset) → ∀ t ∈ goTokensLoop n prev l, 0 ≤ t.orig
  | [], _, _, _, t, ht => by cases ht
  | a :: l, n, prev, h, t, ht => by
    rcases List.mem_cons.mp ht with rfl | ht
    · exact h a List.mem_cons_self
    · exact goTokens_orig l _ _ (fun t ht => h t (List.mem_cons_of_mem _ ht)) t ht

/-- C80: two sources of the same tokens give streams in which the grammar sees the same text, and every parse has the same outcome:
layout and comments do not matter. -/
theorem C80_layout (scan : Bytes → Scanner) (src src' : Bytes) (hist hist' : List ScanError) (c c' : TokenStream)
    (hc : (tokenStreamFromGoCode scan src hist).1 = .stream c) (hc' : (tokenStreamFromGoCode scan src' hist').1 = .stream c')
    (hsame : SameTokens (scan src).toks (scan src').toks) (hin : (scan src).Inside) (hin' : (scan src').Inside)
    (ops : Ops V H) (g : Grammar) (tr : Trace) (opts : List ParseOption) (k : Nat) (h : H)
    (hop : ∀ v o h l, ops.origin v { o with line := l } h = ops.origin v o h)
    (hs : tr.stack = false) (hlp : tr.loop = false) (hd : ∀ n ∈ g.rules, n.info.debug = false)
    (hopt : ParseOption.debug true ∉ opts) :
    c.work = c'.work ∧ seenBrief (parseTokens ops g tr opts k h c).1 = seenBrief (parseTokens ops g tr opts k h c').1 := by
  have key : ∀ src hist c, (tokenStreamFromGoCode scan src hist).1 = .stream c →
      c = TokenStream.new src (goTokensLoop 0 [] (scan src).toks) := by
    intro src hist c h
    unfold tokenStreamFromGoCode at h
    extract_lets sc errs at h
    split at h
    · split at h <;> cases h
    · cases h; rfl
  have e := key _ _ _ hc
  have e' := key _ _ _ hc'
  have hj : joined (goTokensLoop 0 [] (scan src).toks) = joined (goTokensLoop 0 [] (scan src').toks) := by
    unfold joined
    rw [goTokens_same _ _ 0 0 [] hsame]
  have hw := (C10_contiguous scan src hist c hc)
  have hw' := (C10_contiguous scan src' hist' c' hc')
  refine ⟨?_, ?_⟩
  · rw [hw.2.1, hw'.2.1, e, e']; exact hj
  · rw [e, e']
    rw [C12_tokens_equal_text ops g tr opts k h src _ (by have := hw.1; rw [e] at this; exact this) (goTokens_orig _ _ _ hin) hop hs hlp hd hopt,
      C12_tokens_equal_text ops g tr opts k h src' _ (by have := hw'.1; rw [e'] at this; exact this) (goTokens_orig _ _ _ hin') hop hs hlp hd hopt, hj]

/-! ## Reading the tokens off the text -/

theorem runs_head {b : UInt8} {s : Bytes} : ∃ r rs, runs (b :: s) = (b :: r) :: rs := by
  rw [runs]
  split
  · split
    · exact ⟨_, _, rfl⟩
    · exact ⟨_, _, rfl⟩
  · exact ⟨_, _, rfl⟩

theorem runs_append (k : Nat) : ∀ (w t : Bytes), w ≠ [] → (∀ b ∈ w, charKind b = k) → (∀ b, t.head? = some b → charKind b ≠ k) →
    runs (w ++ t) = w :: runs t
  | [], _, h, _, _ => absurd rfl h
  | [b], [], _, _, _ => rfl
  | [b], c :: t, _, hw, ht => by
    obtain ⟨r, rs, hr⟩ := runs_head (b := c) (s := t)
    rw [List.singleton_append, runs, hr]
    have : charKind b ≠ charKind c := by
      rw [hw b List.mem_cons_self]
      exact (ht c rfl).symm
    simp only [this, if_false]
  | b :: b' :: w, t, _, hw, ht => by
    have ih := runs_append k (b' :: w) t (by simp) (fun x hx => hw x (List.mem_cons_of_mem _ hx)) ht
    rw [List.cons_append, runs, ih]
    have : charKind b = charKind b' := by
      rw [hw b List.mem_cons_self, hw b' (by simp)]
    simp only [this, if_true]

theorem wordKind {b : UInt8} (h : wordChar b = true) : charKind b = 1 := by
  have hb : b ≠ 0x20 := by
    rintro rfl
    revert h
    decide
  simp [charKind, hb, h]

theorem scanText_word {t : ScanTok} (h : IsWordTok t) : scanText t = t.lit := by
  unfold scanText
  rw [if_neg, if_neg h.1]
  rintro ⟨_, hl⟩
  have := h.2 0x0A (by rw [hl]; decide)
  revert this
  decide

theorem word_notAuto {t : ScanTok} (h : IsWordTok t) : ¬ (t.tokStr = asc ";" ∧ t.lit = asc "\n") := by
  rintro ⟨_, hl⟩
  have := h.2 0x0A (by rw [hl]; decide)
  revert this
  decide

theorem endsInWord_of {w : Bytes} (hn : w ≠ []) (hw : ∀ b ∈ w, wordChar b = true) : EndsInWord w := by
  refine ⟨w.dropLast, w.getLast hn, (List.dropLast_concat_getLast hn).symm, ?_⟩
  have := hw _ (List.getLast_mem hn)
  have key : ∀ x : UInt8, wordChar x = true → x ∈ asc "abcdefghijklmnopqrstuvwxyzABCDEFGHIJKLMNOPQRSTUVWXYZ0123456789_=" := by
    intro x hx
    have : ∀ n : Fin 256, wordChar (UInt8.ofNat n) = true →
        UInt8.ofNat n ∈ asc "abcdefghijklmnopqrstuvwxyzABCDEFGHIJKLMNOPQRSTUVWXYZ0123456789_=" := by decide +kernel
    have h := this ⟨x.toNat, UInt8.toNat_lt x⟩
    simp only [UInt8.ofNat_toNat] at h
    exact h hx
  exact key _ this

theorem endsInWord_append {a w : Bytes} (h : EndsInWord w) : EndsInWord (a ++ w) := by
  obtain ⟨pre, x, rfl, hx⟩ := h
  exact ⟨a ++ pre, x, by simp, hx⟩

theorem readTokens_append {w t : Bytes} {k : Nat} (hk : k ≠ 0) (hn : w ≠ []) (hw : ∀ b ∈ w, charKind b = k) (ht : ∀ b, t.head? = some b → charKind b ≠ k) :
    readTokens (w ++ t) = w :: readTokens t := by
  unfold readTokens
  rw [runs_append k w t hn hw ht, List.filter_cons_of_pos]
  cases w with
  | nil => exact absurd rfl hn
  | cons b w =>
    have := hw b List.mem_cons_self
    simp [this, hk]

theorem readTokens_blank {t : Bytes} (ht : ∀ b, t.head? = some b → charKind b ≠ 0) : readTokens (0x20 :: t) = readTokens t := by
  unfold readTokens
  rw [show (0x20 :: t : Bytes) = [0x20] ++ t from rfl, runs_append 0 [0x20] t (by simp) (by decide) ht, List.filter_cons_of_neg]
  decide

/-- The kind of the characters of a token. -/
theorem tok_kind {t : ScanTok} (h : IsWordTok t ∨ IsSignTok t) : ∃ k, k ≠ 0 ∧ scanText t ≠ [] ∧ (∀ b ∈ scanText t, charKind b = k) ∧ (k = 1 ∨ IsSignTok t) := by
  rcases h with h | h
  · refine ⟨1, by decide, ?_, ?_, .inl rfl⟩
    · rw [scanText_word h]; exact h.1
    · rw [scanText_word h]; exact fun b hb => wordKind (h.2 b hb)
  · exact ⟨2, by decide, h.1, h.2, .inr h⟩

theorem readTokens_loop : ∀ (l : List ScanTok) (toks : List Token) (prev : Bytes), Tokenised prev l toks → Spaced l →
    readTokens (joined toks) = l.map scanText ∧
    (∀ t, l.head? = some t → ∀ b, (joined toks).head? = some b → charKind b = 0 ∨ (IsSignTok t ∧ charKind b = 2) ∨ (IsWordTok t ∧ ¬ EndsInWord prev)) := by
  intro l
  induction l with
  | nil =>
    intro toks prev h _
    cases h
    exact ⟨rfl, by simp⟩
  | cons t l ih =>
    intro toks prev h hsp
    cases h with
    | @cons _ _ _ tok toks horig h1 h2 h3 =>
      have ht : IsWordTok t ∨ IsSignTok t := by
        cases l with
        | nil => exact hsp
        | cons t' l => exact hsp.1
      have hl : Spaced l := by
        cases l with
        | nil => trivial
        | cons t' l => exact hsp.2.2
      obtain ⟨ih1, ih2⟩ := ih toks _ h3 hl
      -- what follows begins with another kind of character
      have hnext : ∀ k, (∀ b ∈ scanText t, charKind b = k) → ∀ b, (joined toks).head? = some b → charKind b ≠ k := by
        intro k hk b hb
        cases l with
        | nil => cases h3; simp [joined] at hb
        | cons t' l =>
          have hw : scanText t ≠ [] := (tok_kind ht).choose_spec.2.1
          rcases ih2 t' rfl b hb with h0 | ⟨hs, h2'⟩ | ⟨hw', hne⟩
          · rintro rfl
            obtain ⟨k', hk0, hne, hk', _⟩ := tok_kind ht
            cases hst : scanText t with
            | nil => exact hw hst
            | cons x xs =>
              have a1 := hk x (by rw [hst]; simp)
              have a2 := hk' x (by rw [hst]; simp)
              omega
          · rcases hsp.2.1 with hwt | hwt
            · have : k = 1 := by
                rw [scanText_word hwt] at hk
                cases hlit : t.lit with
                | nil => exact absurd hlit hwt.1
                | cons x xs =>
                  have a1 := hk x (by rw [hlit]; simp)
                  have a2 := wordKind (hwt.2 x (by rw [hlit]; simp))
                  omega
              omega
            · exfalso
              have : scanText t' = t'.lit := scanText_word hwt
              cases hlit : t'.lit with
              | nil => exact hwt.1 hlit
              | cons x xs =>
                have a1 := hs.2 x (by rw [this, hlit]; simp)
                have a2 := wordKind (hwt.2 x (by rw [hlit]; simp))
                omega
          · -- a word without a blank before it: the token before is a sign
            rcases ht with hwt | hst
            · exfalso
              apply hne
              have := endsInWord_of hwt.1 hwt.2
              rw [← scanText_word hwt] at this
              rcases h1 with h1 | ⟨h1, _⟩
              · rw [h1]; exact this
              · rw [h1]; exact endsInWord_append this
            · have hk2 : k = 2 := by
                cases hst' : scanText t with
                | nil => exact absurd hst' hw
                | cons x xs =>
                  have a1 := hk x (by rw [hst']; simp)
                  have a2 := hst.2 x (by rw [hst']; simp)
                  omega
              -- the first character is one of the word
              cases h3 with
              | @cons _ _ _ tok' toks' _ g1 g2 g3 =>
                have hr : tok'.repr = t'.lit := by
                  rcases g1 with g1 | ⟨_, g1⟩
                  · rw [g1, scanText_word hw']
                  · exact absurd g1 hne
                rw [joined_cons, hr] at hb
                cases hlit : t'.lit with
                | nil => exact absurd hlit hw'.1
                | cons x xs =>
                  rw [hlit] at hb
                  cases hb
                  rw [wordKind (hw'.2 b (by rw [hlit]; simp)), hk2]
                  decide
      obtain ⟨k, hk0, hne, hk, hk12⟩ := tok_kind ht
      have hread : readTokens (scanText t ++ joined toks) = scanText t :: l.map scanText := by
        rw [readTokens_append hk0 hne hk (hnext k hk), ih1]
      refine ⟨?_, ?_⟩
      · rw [joined_cons, List.map_cons]
        rcases h1 with h1 | ⟨h1, _⟩
        · rw [h1, hread]
        · rw [h1, show (asc " " ++ scanText t ++ joined toks : Bytes) = 0x20 :: (scanText t ++ joined toks) from rfl, readTokens_blank, hread]
          intro b hb
          cases hst : scanText t with
          | nil => exact absurd hst hne
          | cons x xs =>
            rw [hst] at hb
            cases hb
            rw [hk b (by rw [hst]; simp)]
            exact hk0
      · rintro t' ⟨⟩ b hb
        rw [joined_cons] at hb
        rcases h1 with h1 | ⟨h1, _⟩
        · rcases ht with hwt | hst
          · right; right
            refine ⟨hwt, fun hp => ?_⟩
            have := h2 hp hwt.1 (word_notAuto hwt)
            rw [h1] at this
            have := congrArg List.length this
            rw [List.length_append] at this
            have e1 : (asc " ").length = 1 := rfl
            omega
          · right; left
            refine ⟨hst, ?_⟩
            rw [h1] at hb
            cases hs : scanText t with
            | nil => exact absurd hs hst.1
            | cons x xs =>
              rw [hs] at hb
              cases hb
              exact hst.2 b (by rw [hs]; simp)
        · left
          rw [h1] at hb
          cases hb
          decide

/-- C80: if no two signs (operators, brackets, commas, semicolons) are next to each other, the tokens can be read off the text the
grammar sees. What is missing: signs next to each other run together, see below. -/
theorem C80_tokens_readable_partial (scan : Bytes → Scanner) (src : Bytes) (hist : List ScanError) (c : TokenStream)
    (hc : (tokenStreamFromGoCode scan src hist).1 = .stream c) (hsp : Spaced (scan src).toks) :
    readTokens c.work = (scan src).toks.map scanText := by
  have hw := C10_contiguous scan src hist c hc
  rw [hw.2.1]
  unfold tokenStreamFromGoCode at hc
  extract_lets sc errs at hc
  split at hc
  · split at hc <;> cases hc
  · cases hc
    exact (readTokens_loop _ _ _ (C10_texts sc.toks 0 []) hsp).1

/-- C80: so two such sources in which the grammar sees the same text have the same tokens. -/
theorem C80_different_tokens_partial (scan : Bytes → Scanner) (src src' : Bytes) (hist hist' : List ScanError) (c c' : TokenStream)
    (hc : (tokenStreamFromGoCode scan src hist).1 = .stream c) (hc' : (tokenStreamFromGoCode scan src' hist').1 = .stream c')
    (hsp : Spaced (scan src).toks) (hsp' : Spaced (scan src').toks) (he : c.work = c'.work) :
    (scan src).toks.map scanText = (scan src').toks.map scanText := by
  rw [← C80_tokens_readable_partial scan src hist c hc hsp, ← C80_tokens_readable_partial scan src' hist' c' hc' hsp', he]

namespace Sample

/-- An identifier or number. -/
def word (o : Int) (s : String) : ScanTok := ⟨o, asc "IDENT", asc s, false⟩
/-- An operator. -/
def sign (o : Int) (s : String) : ScanTok := ⟨o, asc s, [], s == ","⟩

/-- What go/scanner says of some sources. -/
def goScan : Bytes → Scanner := fun src =>
  if src = asc "x < -y" then ⟨[], [word 0 "x", sign 2 "<", sign 4 "-", word 5 "y", ⟨6, asc ";", asc "\n", false⟩], []⟩
  else if src = asc "x <- y" then ⟨[], [word 0 "x", sign 2 "<-", word 5 "y", ⟨6, asc ";", asc "\n", false⟩], []⟩
  else if src = asc "a - -b" then ⟨[], [word 0 "a", sign 2 "-", sign 4 "-", word 5 "b", ⟨6, asc ";", asc "\n", false⟩], []⟩
  else if src = asc "a--b" then ⟨[], [word 0 "a", sign 1 "--", word 3 "b", ⟨4, asc ";", asc "\n", false⟩], []⟩
  else if src = asc "a = b, c" then ⟨[], [word 0 "a", sign 2 "=", word 4 "b", sign 5 ",", word 7 "c", ⟨8, asc ";", asc "\n", false⟩], []⟩
  else if src = asc "a=b /* d */,  c" then ⟨[], [word 0 "a", sign 1 "=", word 2 "b", sign 11 ",", word 14 "c", ⟨15, asc ";", asc "\n", false⟩], []⟩
  else ⟨[], [], []⟩

/-- The text the grammar sees. -/
def workOf (src : String) : Option Bytes :=
  match (tokenStreamFromGoCode goScan (asc src) []).1 with
  | .stream c => some c.work
  | _ => none

end Sample

open Sample in
/-- C80, counterexample: the grammar cannot tell the comparison `x < -y` from the send `x <- y`, nor `a - -b` from `a--b`. -/
theorem C80_signs_run_together :
    workOf "x < -y" = some (asc "x<-y;\n") ∧ workOf "x <- y" = some (asc "x<-y;\n") ∧
    ((goScan (asc "x < -y")).toks.map scanText ≠ (goScan (asc "x <- y")).toks.map scanText) ∧
    workOf "a - -b" = workOf "a--b" ∧ (goScan (asc "a - -b")).toks.map scanText ≠ (goScan (asc "a--b")).toks.map scanText := by
  decide +kernel

open Sample in
example : workOf "a = b, c" = some (asc "a= b ,c;\n") ∧ workOf "a=b /* d */,  c" = some (asc "a= b ,c;\n") ∧
    readTokens (asc "a= b ,c;\n") = [asc "a", asc "=", asc "b", asc ",", asc "c", asc ";\n"] ∧
    SameTokens (goScan (asc "a = b, c")).toks (goScan (asc "a=b /* d */,  c")).toks ∧
    (goScan (asc "a = b, c")).Inside ∧ (goScan (asc "a=b /* d */,  c")).Inside := by
  unfold SameTokens Scanner.Inside
  decide +kernel

open Sample in
example : Spaced (goScan (asc "a = b, c")).toks := by
  have : (goScan (asc "a = b, c")).toks = [word 0 "a", sign 2 "=", word 4 "b", sign 5 ",", word 7 "c", ⟨8, asc ";", asc "\n", false⟩] := by
    rfl
  rw [this]
  have w : ∀ o s, (asc s ≠ [] ∧ ∀ b ∈ asc s, wordChar b = true) → IsWordTok (word o s) := fun o s h => h
  have wa := w 0 "a" (by decide +kernel)
  have wb := w 4 "b" (by decide +kernel)
  have wc := w 7 "c" (by decide +kernel)
  have s1 : IsSignTok (sign 2 "=") := by unfold IsSignTok; decide +kernel
  have s2 : IsSignTok (sign 5 ",") := by unfold IsSignTok; decide +kernel
  have s3 : IsSignTok ⟨8, asc ";", asc "\n", false⟩ := by unfold IsSignTok; decide +kernel
  exact ⟨.inl wa, .inl wa, .inr s1, .inr wb, .inl wb, .inl wb, .inr s2, .inr wc, .inl wc, .inl wc, .inr s3⟩

end Joeson
