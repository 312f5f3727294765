import Verif.Props.RegexpText
import Verif.Proofs.Regexp5
/-!
# C88: which of the possible matches is taken
-/

namespace Joeson
open RegexpText

/-- Without `^`. -/
def RegexpText.Tree.NoStart {k : RxKind} : Tree k → Prop
  | .last s => s.NoStart
  | .or s a => s.NoStart ∧ a.NoStart
  | .cons a _ s => a.NoStart ∧ s.NoStart
  | .start => False
  | .group _ a => a.NoStart
  | _ => True

/-- The regular expression takes the first `m` bytes of the text. -/
def Took (w : Tree .alt) (s : Bytes) (m : Nat) : Prop := ∃ re, goRx w.text = some re ∧ re.find s = some (0, m)

/-- Only this, repeated so. -/
def RegexpText.Tree.only (a : Tree .atom) (q : Count) : Tree .alt := .last (.cons a q .nil)

theorem took_iff {w : Tree .alt} (h : w.Ok) (s : Bytes) (m : Nat) :
    Took w s m ↔ ∃ rest, (w.rx.run s.length s).head? = some rest ∧ m = s.length - rest.length := by
  have hx := compile_tree (.last (.cons (.group true w) .once .nil)) ⟨h, trivial, trivial, fun h => by cases h⟩
  have e : (Tree.last (.cons (.group true w) .once .nil)).text = [0x28] ++ w.text ++ [0x29] := by
    simp only [Tree.text, Count.text, if_true, List.append_nil]
    rfl
  rw [e] at hx
  have hg : goRx w.text = some (Rx.regex (.seq w.rx .empty)) := by
    unfold goRx
    rw [hx]
    rfl
  unfold Took
  rw [hg]
  simp only [Option.some.injEq, exists_eq_left']
  rw [Rx.find_zero, Rx.run_seq_empty]

theorem took_none {w : Tree .alt} (h : w.Ok) (s : Bytes) : (¬ ∃ m, Took w s m) ↔ w.rx.run s.length s = [] := by
  constructor
  · intro hn
    match hr : w.rx.run s.length s with
    | [] => rfl
    | r :: l => exact absurd ⟨_, (took_iff h s _).mpr ⟨r, by rw [hr]; rfl, rfl⟩⟩ hn
  · rintro hr ⟨m, hm⟩
    obtain ⟨r, h1, _⟩ := (took_iff h s m).mp hm
    rw [hr] at h1
    cases h1

theorem run_suffix {x : Rx} {n : Nat} {s r : Bytes} (h : (x.run n s).head? = some r) : r = s.drop (s.length - r.length) ∧ r.length ≤ s.length := by
  have := ((Rx.run_iff x s r).mp (List.mem_of_mem_head? h)).suffix
  exact ⟨(List.suffix_iff_eq_drop.mp this), this.length_le⟩

/-- Without `^` in the compiled expression. -/
def Rx.NoBol : Rx → Prop
  | .bol => False
  | .seq a b | .alt a b => a.NoBol ∧ b.NoBol
  | .star a | .plus a | .opt a => a.NoBol
  | _ => True

theorem Rx.NoBol.run (n m : Nat) : ∀ (x : Rx) (_ : x.NoBol), x.run n = x.run m
  | .empty, _ => rfl
  | .cls _, _ => rfl
  | .bol, h => h.elim
  | .seq a b, h => by
    funext s
    simp only [Rx.run]
    rw [NoBol.run n m a h.1, NoBol.run n m b h.2]
  | .alt a b, h => by
    funext s
    simp only [Rx.run]
    rw [NoBol.run n m a h.1, NoBol.run n m b h.2]
  | .star a, h => by
    funext s
    simp only [Rx.run]
    rw [NoBol.run n m a h]
  | .plus a, h => by
    funext s
    simp only [Rx.run]
    rw [NoBol.run n m a h]
  | .opt a, h => by
    funext s
    simp only [Rx.run]
    rw [NoBol.run n m a h]

theorem upTo_noBol {a : Rx} (h : a.NoBol) : ∀ k, (a.upTo k).NoBol
  | 0 => trivial
  | 1 => h
  | k + 2 => ⟨h, upTo_noBol h (k + 1)⟩

theorem times_noBol {a : Rx} (h : a.NoBol) (k : Nat) : ∀ n, (a.times n k).NoBol
  | 0 => upTo_noBol h k
  | n + 1 => ⟨h, times_noBol h k n⟩

theorem noStart_noBol {k : RxKind} : ∀ (w : Tree k) (_ : w.NoStart), w.rx.NoBol
  | .last s, h => by rw [Tree.rx]; exact noStart_noBol s h
  | .or s a, h => by rw [Tree.rx]; exact ⟨noStart_noBol s h.1, noStart_noBol a h.2⟩
  | .nil, _ => trivial
  | .cons a q s, h => by
    rw [Tree.rx]
    refine ⟨?_, noStart_noBol s h.2⟩
    have := noStart_noBol a h.1
    cases q with
    | exact n => exact times_noBol this _ _
    | range n m => exact times_noBol this _ _
    | _ => exact this
  | .char _, _ => trivial
  | .esc _, _ => trivial
  | .cls _ _, _ => trivial
  | .dot, _ => trivial
  | .start, h => h.elim
  | .group _ a, h => by rw [Tree.rx]; exact noStart_noBol a h

theorem stars_fuel (a : Bytes → List Bytes) : ∀ (k k' : Nat) (s : Bytes), s.length ≤ k → s.length ≤ k' → Re.stars a k s = Re.stars a k' s
  | 0, 0, s, _, _ => rfl
  | 0, k' + 1, s, h, _ => by
    have : (a s).filter (fun r => decide (r.length < s.length)) = [] := by
      rw [List.filter_eq_nil_iff]
      intro r _
      simp only [decide_eq_true_eq]
      omega
    simp only [Re.stars, this]
    rfl
  | k + 1, 0, s, _, h => by
    have : (a s).filter (fun r => decide (r.length < s.length)) = [] := by
      rw [List.filter_eq_nil_iff]
      intro r _
      simp only [decide_eq_true_eq]
      omega
    simp only [Re.stars, this]
    rfl
  | k + 1, k' + 1, s, h, h' => by
    simp only [Re.stars]
    congr 1
    rw [List.flatMap_def, List.flatMap_def]
    congr 1
    refine List.map_congr_left fun r hr => ?_
    have := (List.mem_filter.mp hr).2
    simp only [decide_eq_true_eq] at this
    exact stars_fuel a k k' r (by omega) (by omega)

/-- The loop once unfolded. -/
theorem star_unfold {a : Rx} (ha : a.nullable = false) (n : Nat) (s : Bytes) :
    (Rx.star a).run n s = (a.run n s).flatMap ((Rx.star a).run n) ++ [s] := by
  show Re.stars (a.run n) s.length s = _
  rw [stars_fuel _ s.length (s.length + 1) s (Nat.le_refl _) (Nat.le_succ _)]
  simp only [Re.stars]
  congr 1
  rw [List.filter_eq_self.mpr fun r hr => by simpa using Rx.run_consumes ha hr, List.flatMap_def, List.flatMap_def]
  congr 1
  refine List.map_congr_left fun r hr => ?_
  exact stars_fuel _ _ _ r (Nat.le_of_lt (Rx.run_consumes ha hr)) (Nat.le_refl _)

theorem star_ne_nil (a : Rx) (n : Nat) (s : Bytes) : ∃ r, ((Rx.star a).run n s).head? = some r := by
  have : s ∈ (Rx.star a).run n s := stars_self s.length s
  match h : (Rx.star a).run n s with
  | [] => rw [h] at this; cases this
  | r :: l => exact ⟨r, rfl⟩

theorem only_ok {a : Tree .atom} (h : a.Ok) {q : Count} (hq : q.Ok) (hn : q.unbounded = true → a.mayBeNone = false) : (a.only q).Ok :=
  ⟨h, hq, trivial, hn⟩

theorem only_run (a : Tree .atom) (q : Count) (n : Nat) (s : Bytes) : (a.only q).rx.run n s = (q.rx a.rx).run n s := by
  show (Rx.seq (q.rx a.rx) .empty).run n s = _
  rw [Rx.run_seq_empty]

/-- C88: of alternatives the first which matches is taken, whatever the others would take. -/
theorem C88_first_alternative (s : Tree .seq) (a : Tree .alt) (h : (Tree.or s a).Ok) (t : Bytes) (m : Nat) :
    Took (.or s a) t m ↔ Took (.last s) t m ∨ ((¬ ∃ m, Took (.last s) t m) ∧ Took a t m) := by
  have hs : (Tree.last s).Ok := h.1
  rw [took_none hs, took_iff h, took_iff hs, took_iff h.2]
  show (∃ rest, (s.rx.run t.length t ++ a.rx.run t.length t).head? = some rest ∧ _) ↔
    (∃ rest, (s.rx.run t.length t).head? = some rest ∧ _) ∨ (s.rx.run t.length t = [] ∧ _)
  match s.rx.run t.length t with
  | [] => simp
  | r :: l => simp

/-- C88: `?` takes one if there is one. -/
theorem C88_optional (a : Tree .atom) (h : a.Ok) (t : Bytes) (m : Nat) :
    Took (a.only .opt) t m ↔ Took (a.only .once) t m ∨ ((¬ ∃ m, Took (a.only .once) t m) ∧ m = 0) := by
  have h1 : (a.only .once).Ok := only_ok h trivial fun h => by cases h
  have h2 : (a.only .opt).Ok := only_ok h trivial fun h => by cases h
  rw [took_none h1, took_iff h1, took_iff h2]
  simp only [only_run, Count.rx, Rx.run]
  match a.rx.run t.length t with
  | [] => simp
  | r :: l => simp

/-- C88: what comes first is matched first: if the rest can go on after what the first part would take alone, then this is what they take together. -/
theorem C88_first_part (a : Tree .atom) (q : Count) (s : Tree .seq) (h : (Tree.cons a q s).Ok) (hn : (Tree.cons a q s).NoStart) (t : Bytes) (m m' : Nat)
    (h1 : Took (a.only q) t m) (h2 : Took (.last s) (t.drop m) m') : Took (.last (.cons a q s)) t (m + m') := by
  have ho : (Tree.last (.cons a q s)).Ok := h
  obtain ⟨g1, g2, g3, g4⟩ := h
  have hs : (Tree.last s).Ok := g3
  rw [took_iff (only_ok g1 g2 g4), only_run] at h1
  rw [took_iff hs] at h2
  rw [took_iff ho]
  obtain ⟨r, hr, rfl⟩ := h1
  obtain ⟨r', hr', rfl⟩ := h2
  obtain ⟨e, hl⟩ := run_suffix hr
  rw [← e] at hr' ⊢
  have hl' := (run_suffix hr').2
  refine ⟨r', flatMap_head hr ?_, by omega⟩
  rw [← hr', (noStart_noBol s hn.2).run t.length r.length]
  rfl

/-- C88: `*` repeats as long as there is a match, each time the one that would be taken alone; `+` too, and once at least. -/
theorem C88_greedy (a : Tree .atom) (h : a.Ok) (hn : a.NoStart) (h0 : a.mayBeNone = false) (t : Bytes) (m : Nat) :
    (Took (a.only .star) t m ↔ ((¬ ∃ m, Took (a.only .once) t m) ∧ m = 0) ∨
      ∃ m1 m2, Took (a.only .once) t m1 ∧ Took (a.only .star) (t.drop m1) m2 ∧ m = m1 + m2) ∧
    (Took (a.only .plus) t m ↔ ∃ m1 m2, Took (a.only .once) t m1 ∧ Took (a.only .star) (t.drop m1) m2 ∧ m = m1 + m2) := by
  have h1 : (a.only .once).Ok := only_ok h trivial fun h => by cases h
  have h2 : (a.only .star).Ok := only_ok h trivial fun _ => h0
  have h3 : (a.only .plus).Ok := only_ok h trivial fun _ => h0
  have hb := noStart_noBol a hn
  have ha : a.rx.nullable = false := by rw [a.nullable]; exact h0
  have key : (∃ m1 m2, Took (a.only .once) t m1 ∧ Took (a.only .star) (t.drop m1) m2 ∧ m = m1 + m2) ↔
      ∃ rest, ((a.rx.run t.length t).flatMap ((Rx.star a.rx).run t.length)).head? = some rest ∧ m = t.length - rest.length := by
    constructor
    · rintro ⟨m1, m2, g1, g2, rfl⟩
      rw [took_iff h1, only_run] at g1
      rw [took_iff h2, only_run] at g2
      obtain ⟨r, hr, rfl⟩ := g1
      obtain ⟨r', hr', rfl⟩ := g2
      obtain ⟨e, hl⟩ := run_suffix hr
      rw [← e] at hr' ⊢
      have hl' := (run_suffix hr').2
      refine ⟨r', flatMap_head hr ?_, by omega⟩
      rw [← hr', Rx.NoBol.run t.length r.length (.star a.rx) hb]
      rfl
    · rintro ⟨r', hr', rfl⟩
      match hr : a.rx.run t.length t with
      | [] => rw [hr] at hr'; cases hr'
      | r :: l =>
        have hrh : (a.rx.run t.length t).head? = some r := by rw [hr]; rfl
        obtain ⟨e, hl⟩ := run_suffix hrh
        obtain ⟨x, hx⟩ := star_ne_nil a.rx t.length r
        have := flatMap_head (f := (Rx.star a.rx).run t.length) hrh hx
        rw [hr'] at this
        cases this
        have hl' := (run_suffix hx).2
        refine ⟨t.length - r.length, r.length - r'.length, ?_, ?_, by omega⟩
        · rw [took_iff h1, only_run]
          exact ⟨r, hrh, rfl⟩
        · rw [← e, took_iff h2, only_run]
          refine ⟨r', ?_, rfl⟩
          rw [← hx, Rx.NoBol.run t.length r.length (.star a.rx) hb]
          rfl
  refine ⟨?_, ?_⟩
  · rw [key, took_none h1, took_iff h2]
    simp only [only_run, Count.rx]
    rw [star_unfold ha]
    match hr : a.rx.run t.length t with
    | [] => simp
    | r :: l =>
      obtain ⟨x, hx⟩ := star_ne_nil a.rx t.length r
      have := flatMap_head (l := r :: l) (f := (Rx.star a.rx).run t.length) rfl hx
      rw [List.head?_append, this]
      simp
  · rw [key, took_iff h3]
    simp only [only_run, Count.rx]
    rfl

/-- `a|ab` takes `a` of `ab`; `(a|ab)*` takes `aa` of `aab`. -/
def sampleAB : Tree .alt := .or (.cons (.char 0x61) .once .nil) (.last (.cons (.char 0x61) .once (.cons (.char 0x62) .once .nil)))

example : sampleAB.text = asc "a|ab" ∧ sampleAB.Ok ∧ sampleAB.NoStart ∧ sampleAB.mayBeNone = false ∧
    ((goRx sampleAB.text).map fun re => re.find (asc "ab")) = some (some (0, 1)) ∧
    ((goRx ((Tree.group true sampleAB).only .star).text).map fun re => re.find (asc "aab")) = some (some (0, 2)) := by
  refine ⟨by kernel_rfl, ?_, ?_, rfl, by kernel_rfl, by kernel_rfl⟩
  · exact ⟨⟨⟨.inl (by decide), by decide⟩, trivial, trivial, fun h => by cases h⟩, ⟨.inl (by decide), by decide⟩, trivial,
      ⟨⟨.inl (by decide), by decide⟩, trivial, trivial, fun h => by cases h⟩, fun h => by cases h⟩
  · exact ⟨⟨trivial, trivial⟩, trivial, trivial, trivial⟩

end Joeson
