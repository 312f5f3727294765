import Verif.Proofs.Tracing
import Verif.Spec.TokenStream
/-!
# Lemmas on token streams
-/

namespace Joeson
open Spec
variable {V H : Type}

/-- Contiguous layout, recursively. -/
def LaidFrom : Int → List Token → Prop
  | _, [] => True
  | n, t :: ts => t.work = n ∧ LaidFrom (n + t.repr.length) ts

theorem joined_cons (t : Token) (l : List Token) : joined (t :: l) = t.repr ++ joined l := by simp [joined]
theorem joined_nil : joined [] = [] := rfl
theorem joined_append (a b : List Token) : joined (a ++ b) = joined a ++ joined b := by simp [joined]

theorem laidFrom_iff (l : List Token) : ∀ n, LaidFrom n l ↔
    ∀ pre t post, l = pre ++ t :: post → t.work = n + ((joined pre).length : Int) := by
  induction l with
  | nil =>
    intro n
    refine ⟨fun _ pre t post h => ?_, fun _ => trivial⟩
    simp at h
  | cons a l ih =>
    intro n
    constructor
    · rintro ⟨h1, h2⟩ pre t post h
      cases pre with
      | nil => injection h with h _; subst h; simp [joined, h1]
      | cons p pre =>
        injection h with h h'
        subst h
        rw [joined_cons, List.length_append, (ih _).mp h2 pre t post h']
        push_cast
        omega
    · intro h
      refine ⟨by simpa [joined] using h [] a l rfl, (ih _).mpr ?_⟩
      intro pre t post hl
      have := h (a :: pre) t post (by rw [hl]; rfl)
      rw [joined_cons, List.length_append] at this
      push_cast at this
      omega

theorem contiguous_iff (l : List Token) : Contiguous l ↔ LaidFrom 0 l := by
  rw [laidFrom_iff]; simp [Contiguous]

theorem LaidFrom.append {n : Int} : ∀ {a b : List Token}, LaidFrom n (a ++ b) →
    LaidFrom n a ∧ LaidFrom (n + (joined a).length) b := by
  intro a
  induction a generalizing n with
  | nil => intro b h; exact ⟨trivial, by simpa [joined] using h⟩
  | cons t a ih =>
    rintro b ⟨h1, h2⟩
    obtain ⟨h3, h4⟩ := ih h2
    refine ⟨⟨h1, h3⟩, ?_⟩
    rw [joined_cons, List.length_append]
    push_cast
    rw [← Int.add_assoc]
    exact h4

/-- The search stops at a token that is not the last. -/
theorem coordsLoop_inside {w : Int} {t : Token} {post : List Token} (hp : post ≠ [])
    (h1 : t.work ≤ w) (h2 : w < t.work + t.repr.length) :
    ∀ (pre : List Token) (n : Int) (prev : Token) (k : Nat), LaidFrom n (pre ++ t :: post) →
    coordsLoop w prev k (pre ++ t :: post) = some (t, t, k + pre.length) := by
  intro pre
  induction pre with
  | nil =>
    intro n prev k h
    cases post with
    | nil => exact absurd rfl hp
    | cons x xs =>
      show coordsLoop w prev k (t :: x :: xs) = _
      rw [coordsLoop, if_pos h2]
      rfl
  | cons p pre ih =>
    intro n prev k h
    have hw := (laidFrom_iff _ _).mp h (p :: pre) t post rfl
    obtain ⟨h3, h4⟩ := h
    rw [joined_cons, List.length_append] at hw
    push_cast at hw
    have hlist : ∃ x xs, pre ++ t :: post = x :: xs := by cases pre <;> exact ⟨_, _, rfl⟩
    obtain ⟨x, xs, hx⟩ := hlist
    show coordsLoop w prev k (p :: (pre ++ t :: post)) = _
    rw [hx, coordsLoop, if_neg (by omega), ← hx, ih _ _ _ h4]
    simp only [List.length_cons]
    rw [show k + 1 + pre.length = k + (pre.length + 1) by omega]

/-- The search reaches the last token with the one before it in its variable. -/
theorem coordsLoop_last {w : Int} {p t : Token} (h1 : t.work ≤ w) :
    ∀ (pre : List Token) (n : Int) (prev : Token) (k : Nat), LaidFrom n (pre ++ [p, t]) →
    coordsLoop w prev k (pre ++ [p, t]) = some (p, t, k + pre.length + 1) := by
  intro pre
  induction pre with
  | nil =>
    rintro n prev k ⟨h2, h3, _⟩
    show coordsLoop w prev k [p, t] = _
    rw [coordsLoop, if_neg (by omega)]
    rfl
  | cons q pre ih =>
    intro n prev k h
    have hw := (laidFrom_iff _ _).mp h (q :: (pre ++ [p])) t [] (by simp)
    obtain ⟨h3, h4⟩ := h
    rw [joined_cons, List.length_append] at hw
    push_cast at hw
    have hlist : ∃ x xs, pre ++ [p, t] = x :: xs := by cases pre <;> exact ⟨_, _, rfl⟩
    obtain ⟨x, xs, hx⟩ := hlist
    show coordsLoop w prev k (q :: (pre ++ [p, t])) = _
    rw [hx, coordsLoop, if_neg (by omega), ← hx, ih _ _ _ h4]
    simp only [List.length_cons]
    rw [show k + 1 + pre.length + 1 = k + (pre.length + 1) + 1 by omega]

/-- The original offset is never negative on a contiguous stream with non negative original offsets. -/
theorem coordsLoop_nonneg {w : Int} : ∀ (l : List Token) (n : Int) (prev : Token) (k : Nat), LaidFrom n l →
    (∀ t ∈ l, 0 ≤ t.orig) → prev.work ≤ w → n ≤ w → ∀ a b m, coordsLoop w prev k l = some (a, b, m) →
    0 ≤ b.orig + (w - a.work)
  | [], _, _, _, _, _, _, _, _, _, _, h => by simp [coordsLoop] at h
  | [t], _, prev, k, _, ho, hp, _, a, b, m, h => by
    simp only [coordsLoop, Option.some.injEq, Prod.mk.injEq] at h
    obtain ⟨rfl, rfl, rfl⟩ := h
    have := ho t (by simp)
    omega
  | t :: t' :: l, n, prev, k, hl, ho, hp, hn, a, b, m, h => by
    rw [coordsLoop] at h
    have hl0 := hl.1
    split at h
    · simp only [Option.some.injEq, Prod.mk.injEq] at h
      obtain ⟨rfl, rfl, rfl⟩ := h
      have := ho t (by simp)
      omega
    · exact coordsLoop_nonneg (t' :: l) _ t (k + 1) hl.2 (fun x hx => ho x (List.mem_cons_of_mem _ hx))
        (by omega) (by omega) a b m h

theorem coords_nonneg (c : TokenStream) (hl : Contiguous c.tokens) (ho : ∀ t ∈ c.tokens, 0 ≤ t.orig) (w : Nat) :
    0 ≤ (c.coords w).originalOffset := by
  unfold TokenStream.coords
  cases hx : coordsLoop (w : Int) ⟨[], 0, 0⟩ 0 c.tokens with
  | none => exact Int.le_refl 0
  | some x =>
    obtain ⟨a, b, m⟩ := x
    exact coordsLoop_nonneg c.tokens 0 _ 0 ((contiguous_iff _).mp hl) ho (by show (0 : Int) ≤ w; omega) (by omega) a b m hx

theorem goIndex_ok {α : Type} (a : List α) (i : Int) (h0 : 0 ≤ i) (h1 : i < a.length) : ∃ x, goIndex a i = .ok x := by
  unfold goIndex
  rw [if_pos h0, List.getElem?_eq_getElem (by omega)]
  exact ⟨_, rfl⟩

/-- A line number of the table. -/
theorem bisect_range (text : Bytes) (o : Int) (ho : 0 ≤ o) :
    1 ≤ bisectRight (lineStartsOf text) o ∧ bisectRight (lineStartsOf text) o ≤ (lineStartsOf text).length := by
  obtain ⟨h1, _, h3⟩ := bisectRight_spec (lineStartsOf_sorted text) o
  refine ⟨?_, h1⟩
  by_cases h : bisectRight (lineStartsOf text) o = 0
  · have := h3 0 0 (by omega) (by rw [lineStartsOf_eq]; rfl)
    omega
  · omega

theorem peekLinesCore_ok (text : Bytes) (ls : List Int) (cur n : Int) (h0 : 0 ≤ cur) (h1 : cur < ls.length)
    (hn : n = -2 ∨ n = 2) : ∃ r, RuneStream.peekLinesCore text ls cur n [0] = .ok r := by
  unfold RuneStream.peekLinesCore
  have hmn : ∃ mn mx : Int, mn ≤ 0 ∧ 0 ≤ mx ∧ [(0 : Int)].foldl (fun m n => if n < m then n else m) n = mn ∧
      [(0 : Int)].foldl (fun m n => if n > m then n else m) n = mx := by
    rcases hn with rfl | rfl
    · exact ⟨-2, 0, by omega, by omega, rfl, rfl⟩
    · exact ⟨0, 2, by omega, by omega, rfl, rfl⟩
  obtain ⟨mn, mx, h2, h3, h4, h5⟩ := hmn
  rw [h4, h5]
  dsimp only
  obtain ⟨st, hst⟩ := goIndex_ok ls (goMax 0 (cur + mn)) (by unfold goMax; split <;> omega) (by unfold goMax; split <;> omega)
  rw [hst]
  simp only [bind, Except.bind]
  split
  · rename_i hlt
    have hlt' := hlt
    unfold goMin at hlt'
    obtain ⟨e, he⟩ := goIndex_ok ls (goMin ((ls.length : Int) - 1) (cur + mx) + 1)
      (by unfold goMin; split <;> omega) (by omega)
    rw [he]
    exact ⟨_, C14_sliceString_js _ _ _⟩
  · exact ⟨_, C14_sliceString_js _ _ _⟩

/-- Token streams match like rune streams on the joined text. -/
theorem tokens_matchString (c : TokenStream) (p : Nat) (b : Bytes) :
    (Stream.ofTokens c).matchString p b = (Stream.ofText c.work).matchString p b := by
  show (do let (r, c) ← (c.withPos p).matchString b; return (r, c.workOffset)) =
    (do let (r, c) ← (runeAt c.work p).matchString b; return (r, c.pos) : Except Panic (Option Bytes × Nat))
  unfold TokenStream.matchString RuneStream.matchString
  have h1 : (c.withPos p).work = c.work := rfl
  have h2 : (c.withPos p).workOffset = p := rfl
  have h3 : (runeAt c.work p).text = c.work := rfl
  have h4 : (runeAt c.work p).pos = p := rfl
  rw [h1, h2, h3, h4]
  cases goSlice c.work p (goMin (p + b.length) c.work.length) with
  | error e => rfl
  | ok x =>
    simp only [bind, Except.bind, pure, Except.pure]
    by_cases hb : b ≠ x
    · rw [if_pos hb, if_pos hb]; rfl
    · rw [if_neg hb, if_neg hb]

theorem tokens_matchRegexp (c : TokenStream) (p : Nat) (re : Regex) :
    (Stream.ofTokens c).matchRegexp p re = (Stream.ofText c.work).matchRegexp p re := by
  show (do let (r, c) ← (c.withPos p).matchRegexp re; return (r, c.workOffset)) =
    (do let (r, c) ← (runeAt c.work p).matchRegexp re; return (r, c.pos) : Except Panic (Option Bytes × Nat))
  unfold TokenStream.matchRegexp RuneStream.matchRegexp
  have h1 : (c.withPos p).work = c.work := rfl
  have h2 : (c.withPos p).workOffset = p := rfl
  have h3 : (runeAt c.work p).text = c.work := rfl
  have h4 : (runeAt c.work p).pos = p := rfl
  rw [h1, h2, h3, h4]
  cases goSlice c.work p c.work.length with
  | error e => rfl
  | ok x =>
    simp only [bind, Except.bind, pure, Except.pure]
    cases re.find x with
    | none => rfl
    | some y =>
      obtain ⟨a, b⟩ := y
      dsimp only
      by_cases ha : a ≠ 0
      · rw [if_pos ha, if_pos ha]; rfl
      · rw [if_neg ha, if_neg ha]
        cases goSlice c.work (p + a) (goMin (p + b) c.work.length) <;> rfl

theorem tokens_peekRunes (c : TokenStream) (p : Nat) (n : Int) :
    (c.withPos p).peekRunes n = (runeAt c.work p).peekRunes n := rfl

theorem Stream.ofTokens_valid (c : TokenStream) : (Stream.ofTokens c).Valid := by
  have hv := Stream.ofText_valid c.work
  constructor
  · intro p b hp
    rw [tokens_matchString]
    exact hv.string p b hp
  · intro p re hp
    rw [tokens_matchRegexp]
    exact hv.regexp p re hp

/-- Building the error message on a token stream never panics. -/
theorem tokenReport_ok (c : TokenStream) (hls : c.lineStarts = lineStartsOf c.original) (hl : Contiguous c.tokens)
    (ho : ∀ t ∈ c.tokens, 0 ≤ t.orig) (pos suc att : Nat) (h1 : pos ≤ suc) (h2 : suc ≤ att) (h3 : att ≤ c.work.length) :
    ∃ r, c.report pos suc att = .ok r ∧ r.char = suc ∧ r.line = c.posToLine suc := by
  have hline : ∀ p w : Nat, 0 ≤ (c.withPos p).posToLine w ∧ (c.withPos p).posToLine w < (c.lineStarts).length := by
    intro p w
    have := bisect_range c.original ((c.withPos p).coords w).originalOffset (coords_nonneg (c.withPos p) hl ho w)
    unfold TokenStream.posToLine
    have hx : (c.withPos p).lineStarts = lineStartsOf c.original := hls
    rw [hx, hls]
    omega
  unfold TokenStream.report
  extract_lets c'
  subst c'
  have hcol : ∃ x, (c.withPos pos).posToCol suc = .ok x := by
    unfold TokenStream.posToCol
    obtain ⟨x, hx⟩ := goIndex_ok c.lineStarts _ (hline pos suc).1 (hline pos suc).2
    have : (c.withPos pos).lineStarts = c.lineStarts := rfl
    rw [this, hx]
    exact ⟨_, rfl⟩
  obtain ⟨x, hx⟩ := hcol
  rw [hx]
  unfold TokenStream.printSlices
  simp only [C14_sliceString_js]
  have hpl : ∀ p n, (n = -2 ∨ n = 2) → ∃ r, (c.withPos p).peekLines [n] = .ok r := by
    intro p n hn
    exact peekLinesCore_ok c.original c.lineStarts _ n (hline p p).1 (hline p p).2 hn
  obtain ⟨ok, hok⟩ := hpl pos (-2) (Or.inl rfl)
  rw [hok]
  obtain ⟨par, hpar⟩ := peekRunes_nonneg_ok _ (runeAt_valid c.work (p := pos) (by omega)) ((suc : Int) - (pos : Int)) (by omega)
  rw [tokens_peekRunes, hpar]
  have hset : ∀ p q : Nat, q ≤ c.work.length → (c.withPos p).setPos (q : Int) = .ok (c.withPos q) := by
    intro p q hq
    unfold TokenStream.setPos
    rw [if_neg]
    · rfl
    · have : (c.withPos p).work = c.work := rfl
      rw [this]; omega
  rw [hset pos suc (by omega)]
  obtain ⟨sus, hsus⟩ := peekRunes_nonneg_ok _ (runeAt_valid c.work (p := suc) (by omega)) ((att : Int) - (suc : Int)) (by omega)
  simp only [bind, Except.bind]
  have hwo : (c.withPos suc).workOffset = suc := rfl
  rw [hwo, tokens_peekRunes, hsus]
  dsimp only
  rw [hset suc att (by omega)]
  obtain ⟨unk, hunk⟩ := hpl att 2 (Or.inr rfl)
  dsimp only
  rw [hunk]
  exact ⟨_, rfl, rfl, rfl⟩

/-- `tokens` against `text`, without tracing. -/
theorem tokens_traced (ops : Ops V H) (g : Grammar) (tr : Trace) (skip skip' : Bool) (c : TokenStream)
    (hop : ∀ v o h l, ops.origin v { o with line := l } h = ops.origin v o h)
    (hs : tr.stack = false) (hl : tr.loop = false) (hd : ∀ n ∈ g.rules, n.info.debug = false) :
    Traced { ops := ops, st := Stream.ofTokens c, g := g, trace := tr, skipLog := skip }
      { ops := ops, st := Stream.ofText c.work, g := g, trace := tr, skipLog := skip' } (fun _ => false) := by
  refine ⟨rfl, rfl, ?_, ?_, Or.inr hop, ?_, hs, hl, hd⟩
  · funext p b; exact tokens_matchString c p b
  · funext p re; exact tokens_matchRegexp c p re
  · show g = g.setDebug fun _ => false
    have : (g.rules.mapIdx fun id n => n.setDebug ((fun _ => false) id)) = g.rules := by
      apply List.ext_getElem?
      intro i
      rw [List.getElem?_mapIdx]
      cases hb : g.rules[i]? with
      | none => rfl
      | some b =>
        have h0 := hd b (List.mem_of_getElem? hb)
        cases b <;> first | rfl | (unfold Node.info at h0; simp only at h0; simp [Node.setDebug, ← h0])
    unfold Grammar.setDebug
    rw [this]

theorem opts_no_debug (opts : List ParseOption) (h : ParseOption.debug true ∉ opts) :
    (opts.foldl CtxOptions.apply {}).debug = false := by
  have : ∀ (l : List ParseOption) (o : CtxOptions), o.debug = false → ParseOption.debug true ∉ l →
      (l.foldl CtxOptions.apply o).debug = false := by
    intro l
    induction l with
    | nil => intro o h _; exact h
    | cons x l ih =>
      intro o h hx
      refine ih _ ?_ fun h' => hx (List.mem_cons_of_mem _ h')
      cases x with
      | debug b =>
        cases b with
        | false => rfl
        | true => exact absurd (by simp) hx
      | skipLog b => exact h
      | skipCache b => exact h
  exact this opts {} rfl h

/-- `ParseTokens` on a fresh stream against `ParseString` on the joined text. -/
theorem parseTokens_text (ops : Ops V H) (g : Grammar) (tr : Trace) (opts opts' : List ParseOption) (k : Nat) (h : H)
    (c : TokenStream) (hc : c.lineStarts = lineStartsOf c.original) (hw : c.workOffset = 0)
    (hl : Contiguous c.tokens) (ho : ∀ t ∈ c.tokens, 0 ≤ t.orig)
    (hop : ∀ v o h l, ops.origin v { o with line := l } h = ops.origin v o h)
    (hs : tr.stack = false) (hlp : tr.loop = false) (hd : ∀ n ∈ g.rules, n.info.debug = false)
    (hopt : ParseOption.debug true ∉ opts) (hopt' : ParseOption.debug true ∉ opts') :
    seenBrief (parseTokens ops g tr opts k h c).1 = seenBrief (parseString ops g tr opts' k h c.work).1 := by
  have T := tokens_traced ops g tr (opts.foldl CtxOptions.apply {}).skipLog
    (opts'.foldl CtxOptions.apply {}).skipLog c hop hs hlp hd
  have key := parse_tsim (l0 := []) T (Stream.ofTokens_valid c) k g.root [] (newState h 0) ⟨Nat.zero_le _, fun _ => rfl⟩
  have hat : St.at [] (newState (V := V) h 0) = newState h 0 := rfl
  rw [hat] at key
  unfold parseTokens parseString grammarParse
  rw [hw, opts_no_debug opts hopt, opts_no_debug opts' hopt']
  simp only [Bool.false_eq_true, if_false]
  rcases key with ⟨e, h1, h2⟩ | ⟨h1, h2⟩ | ⟨e, h1, h2⟩ | ⟨r, s, h1, h2, h3⟩
  · exfalso
    rcases h2 with ⟨(h2 | ⟨n, hn, h2⟩), _⟩ | ⟨h2, _⟩
    · rw [show ({ ops := ops, st := Stream.ofTokens c, g := g, trace := tr, skipLog := _ } : Env V H).trace.stack = tr.stack from rfl, hs] at h2
      cases h2
    · rw [hd n hn] at h2; cases h2
    · rw [show ({ ops := ops, st := Stream.ofTokens c, g := g, trace := tr, skipLog := _ } : Env V H).trace.loop = tr.loop from rfl, hlp] at h2
      cases h2
  · rw [h1, h2]
  · rw [h1, h2]
  · rw [h1, h2]
    dsimp only
    have hp : (s.at []).pos = s.pos := rfl
    have hlen : (Stream.ofTokens c).len = c.work.length := rfl
    have hlen' : (Stream.ofText c.work).len = c.work.length := rfl
    have hpos : s.pos ≤ c.work.length := h3.pos
    rw [hp, hlen, hlen', scanRows_at]
    by_cases hne : s.pos ≠ c.work.length
    · rw [if_pos hne, if_pos hne]
      have hsc := scanRows_spec s g.numRules (c.work.length + 1 - s.pos) s.pos s.pos s.pos (Nat.le_refl _) (Nat.le_refl _)
      dsimp only at hsc
      obtain ⟨s1, s2, s3, s4, _⟩ := hsc
      have hatt : (scanRows s g.numRules s.pos (c.work.length + 1 - s.pos) (s.pos, s.pos)).1 ≤ c.work.length := by
        rcases s4 with h | ⟨_, h, _⟩ <;> omega
      obtain ⟨r1, e1, c1, _⟩ := tokenReport_ok c hc hl ho s.pos _ _ s1 s2 hatt
      obtain ⟨r2, e2, c2, _⟩ := runeReport_ok c.work s.pos _ _ s1 s2 hatt
      rw [e1, e2]
      show Out.ok (Brief.error r1.char, s.h, s.calls) = Out.ok (Brief.error r2.char, _, _)
      rw [c1, c2]
      rfl
    · rw [if_neg hne, if_neg hne]
      cases r <;> rfl

/-- Scanner tokens are laid out one after the other. -/
theorem goTokensLoop_laid : ∀ (l : List ScanTok) (n : Int) (prev : Bytes),
    LaidFrom (n + prev.length) (goTokensLoop n prev l)
  | [], _, _ => trivial
  | t :: l, n, prev => ⟨rfl, goTokensLoop_laid l _ _⟩

end Joeson
