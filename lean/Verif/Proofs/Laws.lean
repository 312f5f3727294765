import Verif.Spec.Laws
import Verif.Proofs.Lang6
/-! # The laws hold -/

namespace Joeson.RuleText
variable {L : List GLine} {d : Nat} {s : Bytes} {r : Option Bytes}

theorem pat_alt {l} : Parses L d (.pat (.alt l)) s r ↔ Parses L d (.alts l) s r := ⟨fun h => by cases h; assumption, .alt⟩
theorem pat_seq {l} : Parses L d (.pat (.seq l)) s r ↔ Parses L d (.seq l) s r := ⟨fun h => by cases h; assumption, .seq⟩
theorem alts_nil : Parses L d (.alts []) s r ↔ r = none := ⟨fun h => by cases h; rfl, fun h => h ▸ .altsEnd⟩
theorem alts_cons {p l} : Parses L d (.alts (p :: l)) s r ↔
    (∃ s', r = some s' ∧ Parses L d (.pat p) s (some s')) ∨ (Parses L d (.pat p) s none ∧ Parses L d (.alts l) s r) := by
  constructor
  · intro h
    cases h with
    | altsHit h => exact .inl ⟨_, rfl, h⟩
    | altsMiss h h' => exact .inr ⟨h, h'⟩
  · rintro (⟨s', rfl, h⟩ | ⟨h, h'⟩)
    · exact .altsHit h
    · exact .altsMiss h h'
theorem seq_nil : Parses L d (.seq []) s r ↔ r = some s := ⟨fun h => by cases h; rfl, fun h => h ▸ .seqEnd⟩
theorem seq_cons {p l} : Parses L d (.seq (p :: l)) s r ↔
    (r = none ∧ Parses L d (.pat p) s none) ∨ ∃ s', Parses L d (.pat p) s (some s') ∧ Parses L d (.seq l) s' r := by
  constructor
  · intro h
    cases h with
    | seqMiss h => exact .inl ⟨rfl, h⟩
    | seqNext h h' => exact .inr ⟨_, h, h'⟩
  · rintro (⟨rfl, h⟩ | ⟨s', h, h'⟩)
    · exact .seqMiss h
    · exact .seqNext h h'
theorem pat_opt {p} : Parses L d (.pat (.opt p)) s r ↔
    (∃ s', r = some s' ∧ Parses L d (.pat p) s (some s')) ∨ (r = some s ∧ Parses L d (.pat p) s none) := by
  constructor
  · intro h
    cases h with
    | opt h => exact .inl ⟨_, rfl, h⟩
    | optMiss h => exact .inr ⟨rfl, h⟩
  · rintro (⟨s', rfl, h⟩ | ⟨rfl, h⟩)
    · exact .opt h
    · exact .optMiss h
theorem pat_not {p} : Parses L d (.pat (.not p)) s r ↔
    (r = none ∧ ∃ s', Parses L d (.pat p) s (some s')) ∨ (r = some s ∧ Parses L d (.pat p) s none) := by
  constructor
  · intro h
    cases h with
    | not h => exact .inl ⟨rfl, _, h⟩
    | notMiss h => exact .inr ⟨rfl, h⟩
  · rintro (⟨rfl, s', h⟩ | ⟨rfl, h⟩)
    · exact .not h
    · exact .notMiss h
theorem pat_look {p} : Parses L d (.pat (.look p)) s r ↔
    (r = some s ∧ ∃ s', Parses L d (.pat p) s (some s')) ∨ (r = none ∧ Parses L d (.pat p) s none) := by
  constructor
  · intro h
    cases h with
    | look h => exact .inl ⟨rfl, _, h⟩
    | lookMiss h => exact .inr ⟨rfl, h⟩
  · rintro (⟨rfl, s', h⟩ | ⟨rfl, h⟩)
    · exact .look h
    · exact .lookMiss h
theorem pat_lit {b} : Parses L d (.pat (.lit b)) s r ↔ (∃ t, s = b ++ t ∧ r = some t) ∨ (r = none ∧ ∀ t, s ≠ b ++ t) := by
  constructor
  · intro h
    generalize hj : Job.pat (.lit b) = j at h
    cases h with
    | lit => cases hj; exact .inl ⟨_, rfl, rfl⟩
    | litMiss h => cases hj; exact .inr ⟨rfl, h⟩
    | _ => cases hj
  · rintro (⟨t, rfl, rfl⟩ | ⟨rfl, h⟩)
    · exact .lit
    · exact .litMiss h
theorem pat_rep {v sep mn mx} : Parses L d (.pat (.rep v sep mn mx)) s r ↔
    (r = stop mn 0 s ∧ Parses L d (.pat v) s none) ∨ ∃ s', Parses L d (.pat v) s (some s') ∧ Parses L d (.more v sep mn mx 1) s' r := by
  constructor
  · intro h
    cases h with
    | rep0 h => exact .inl ⟨rfl, h⟩
    | rep h h' => exact .inr ⟨_, h, h'⟩
  · rintro (⟨rfl, h⟩ | ⟨s', h, h'⟩)
    · exact .rep0 h
    · exact .rep h h'
theorem sep_none : Parses L d (.sep none) s r ↔ r = some s := ⟨fun h => by cases h; rfl, fun h => h ▸ .sepNone⟩
theorem sep_some {p} : Parses L d (.sep (some p)) s r ↔ Parses L d (.pat p) s r := ⟨fun h => by cases h; assumption, .sepSome⟩
theorem pats_more_iff {v sep mn mx n} : Parses L d (.more v sep mn mx n) s r ↔
    (r = stop mn n s ∧ (¬ Room mx n ∨ Parses L d (.sep sep) s none ∨ ∃ s', Parses L d (.sep sep) s (some s') ∧ Parses L d (.pat v) s' none)) ∨
    (Room mx n ∧ ∃ s' s'', Parses L d (.sep sep) s (some s') ∧ Parses L d (.pat v) s' (some s'') ∧ Parses L d (.more v sep mn mx (n + 1)) s'' r) := by
  constructor
  · intro h
    cases h with
    | full h => exact .inl ⟨rfl, .inl h⟩
    | noSep _ h => exact .inl ⟨rfl, .inr (.inl h)⟩
    | noMore _ h h' => exact .inl ⟨rfl, .inr (.inr ⟨_, h, h'⟩)⟩
    | more hr h h' h'' => exact .inr ⟨hr, _, _, h, h', h''⟩
  · rintro (⟨rfl, h⟩ | ⟨hr, s', s'', h, h', h''⟩)
    · by_cases hr : Room mx n
      · rcases h with h | h | ⟨s', h, h'⟩
        · exact absurd hr h
        · exact .noSep hr h
        · exact .noMore hr h h'
      · exact .full hr
    · exact .more hr h h' h''

theorem alts_append {xs ys} : Parses L d (.alts (xs ++ ys)) s r ↔
    (∃ s', r = some s' ∧ Parses L d (.alts xs) s (some s')) ∨ (Parses L d (.alts xs) s none ∧ Parses L d (.alts ys) s r) := by
  induction xs with
  | nil => simp [alts_nil]
  | cons x xs ih =>
    simp only [List.cons_append, alts_cons, ih]
    constructor
    · rintro (⟨s', rfl, h⟩ | ⟨h, ⟨s', rfl, h'⟩ | ⟨h', h''⟩⟩)
      · exact .inl ⟨s', rfl, .inl ⟨s', rfl, h⟩⟩
      · exact .inl ⟨s', rfl, .inr ⟨h, h'⟩⟩
      · exact .inr ⟨.inr ⟨h, h'⟩, h''⟩
    · rintro (⟨s', rfl, ⟨_, h1, h⟩ | ⟨h, h'⟩⟩ | ⟨⟨_, h1, _⟩ | ⟨h, h'⟩, h''⟩)
      · cases h1; exact .inl ⟨s', rfl, h⟩
      · exact .inr ⟨h, .inl ⟨s', rfl, h'⟩⟩
      · cases h1
      · exact .inr ⟨h, .inr ⟨h', h''⟩⟩

theorem seq_append {xs ys} : Parses L d (.seq (xs ++ ys)) s r ↔
    (r = none ∧ Parses L d (.seq xs) s none) ∨ ∃ s', Parses L d (.seq xs) s (some s') ∧ Parses L d (.seq ys) s' r := by
  induction xs generalizing s with
  | nil => simp [seq_nil]
  | cons x xs ih =>
    simp only [List.cons_append, seq_cons, ih]
    constructor
    · rintro (⟨rfl, h⟩ | ⟨s', h, ⟨rfl, h'⟩ | ⟨s'', h', h''⟩⟩)
      · exact .inl ⟨rfl, .inl ⟨trivial, h⟩⟩
      · exact .inl ⟨rfl, .inr ⟨s', h, h'⟩⟩
      · exact .inr ⟨s'', .inr ⟨s', h, h'⟩, h''⟩
    · rintro (⟨rfl, ⟨_, h⟩ | ⟨s', h, h'⟩⟩ | ⟨s'', ⟨h1, _⟩ | ⟨s', h, h'⟩, h''⟩)
      · exact .inl ⟨rfl, h⟩
      · exact .inr ⟨s', h, .inl ⟨rfl, h'⟩⟩
      · cases h1
      · exact .inr ⟨s', h, .inr ⟨s'', h', h''⟩⟩

/-- The same outcome of every text. -/
def Same (L : List GLine) (p q : Pat) : Prop := ∀ d s r, Parses L d (.pat p) s r ↔ Parses L d (.pat q) s r

/-- What is repeated changes. -/
theorem more_congr {v v' : Pat} {sep sep' : Option Pat} (hv : Same L v v') (hs : ∀ d s r, Parses L d (.sep sep) s r → Parses L d (.sep sep') s r)
    {mn mn' n n' : Nat} {mx mx' : Option Nat} (hroom : ∀ k, Room mx (n + k) ↔ Room mx' (n' + k)) (hstop : ∀ k s, stop mn (n + k) s = stop mn' (n' + k) s)
    (h : Parses L d (.more v sep mn mx n) s r) : Parses L d (.more v' sep' mn' mx' n') s r := by
  generalize hj : Job.more v sep mn mx n = j at h
  induction h generalizing n n' with
  | full h => cases hj; have hst := hstop 0; simp only [Nat.add_zero] at hst; rw [hst]; exact .full fun h' => h ((hroom 0).mpr h')
  | noSep h h1 => cases hj; have hst := hstop 0; simp only [Nat.add_zero] at hst; rw [hst]; exact .noSep ((hroom 0).mp h) (hs _ _ _ h1)
  | noMore h h1 h2 => cases hj; have hst := hstop 0; simp only [Nat.add_zero] at hst; rw [hst]; exact .noMore ((hroom 0).mp h) (hs _ _ _ h1) ((hv _ _ _).mp h2)
  | more h h1 h2 h3 _ _ ih =>
    cases hj
    exact .more ((hroom 0).mp h) (hs _ _ _ h1) ((hv _ _ _).mp h2) (ih (fun k => by have := hroom (1 + k); simpa only [Nat.add_assoc] using this)
      (fun k s => by have := hstop (1 + k) s; simpa only [Nat.add_assoc] using this) rfl)
  | _ => cases hj

theorem same_refl (p : Pat) : Same L p p := fun _ _ _ => Iff.rfl

theorem room_unbounded (n : Nat) : Room none n := fun _ h => by cases h

/-- Without a maximum, and with enough, it does not matter how many there were. -/
theorem more_count {v sep} {mn mn' n n' : Nat} (h1 : mn ≤ n) (h2 : mn' ≤ n') :
    Parses L d (.more v sep mn none n) s r ↔ Parses L d (.more v sep mn' none n') s r := by
  constructor
  · exact more_congr (same_refl v) (fun _ _ _ h => h) (fun k => ⟨fun _ => room_unbounded _, fun _ => room_unbounded _⟩) fun k s => by
      simp [stop, show ¬ n + k < mn by omega, show ¬ n' + k < mn' by omega]
  · exact more_congr (same_refl v) (fun _ _ _ h => h) (fun k => ⟨fun _ => room_unbounded _, fun _ => room_unbounded _⟩) fun k s => by
      simp [stop, show ¬ n + k < mn by omega, show ¬ n' + k < mn' by omega]

/-- After the first, `a*` goes on as it began. -/
theorem more_star {v} {mn n : Nat} (h : mn ≤ n) : Parses L d (.more v none mn none n) s r ↔ Parses L d (.pat (.rep v none 0 none)) s r := by
  rw [pat_rep, pats_more_iff]
  simp only [sep_none, stop, show ¬ n < mn by omega, if_false, Nat.lt_irrefl, room_unbounded, not_true_eq_false, false_or, true_and, Option.some.injEq,
    reduceCtorEq]
  constructor
  · rintro (⟨rfl, s', rfl, h1⟩ | ⟨s', s'', rfl, h1, h2⟩)
    · exact .inl ⟨rfl, h1⟩
    · exact .inr ⟨s'', h1, (more_count (by omega) (by omega)).mp h2⟩
  · rintro (⟨rfl, h1⟩ | ⟨s'', h1, h2⟩)
    · exact .inl ⟨rfl, s, rfl, h1⟩
    · exact .inr ⟨s, s'', rfl, h1, (more_count (by omega) (by omega)).mp h2⟩

/-- After a repetition there is not another. -/
theorem rep_leaves_none {v} {mn : Nat} {s' : Bytes} (h : Parses L d (.pat (.rep v none mn none)) s (some s')) : Parses L d (.pat v) s' none := by
  have key : ∀ {n s r}, Parses L d (.more v none mn none n) s r → ∀ s', r = some s' → Parses L d (.pat v) s' none := by
    clear h
    intro n s r h
    generalize hj : Job.more v none mn none n = j at h
    induction h generalizing n with
    | full h => cases hj; exact absurd (room_unbounded _) h
    | noSep _ h => cases hj; cases sep_none.mp h
    | noMore _ h h' =>
      cases hj
      cases sep_none.mp h
      intro s' hs
      simp only [stop] at hs
      split at hs
      · cases hs
      · cases hs; exact h'
    | more _ _ _ _ _ _ ih => cases hj; exact ih rfl
    | _ => cases hj
  rcases pat_rep.mp h with ⟨hs, h1⟩ | ⟨s1, h1, h'⟩
  · simp only [stop] at hs
    split at hs
    · cases hs
    · cases hs; exact h1
  · exact key h' _ rfl

/-- The same with separators. -/
theorem more_join_to {v j} {mn n : Nat} (h : mn ≤ n) (hp : Parses L d (.more v (some j) mn none n) s r) :
    Parses L d (.more (.seq [j, v]) none mn none n) s r := by
  generalize hj : Job.more v (some j) mn none n = jb at hp
  induction hp generalizing n with
  | full hr => cases hj; exact absurd (room_unbounded _) hr
  | noSep hr h1 => cases hj; exact .noMore hr .sepNone (.seq (.seqMiss (sep_some.mp h1)))
  | noMore hr h1 h2 => cases hj; exact .noMore hr .sepNone (.seq (.seqNext (sep_some.mp h1) (.seqMiss h2)))
  | more hr h1 h2 _ _ _ ih =>
    cases hj
    exact .more hr .sepNone (.seq (.seqNext (sep_some.mp h1) (.seqNext h2 .seqEnd))) (ih (by omega) rfl)
  | _ => cases hj

theorem more_join_of {v j} {mn n : Nat} (h : mn ≤ n) (hp : Parses L d (.more (.seq [j, v]) none mn none n) s r) :
    Parses L d (.more v (some j) mn none n) s r := by
  generalize hj : Job.more (.seq [j, v]) none mn none n = jb at hp
  induction hp generalizing n with
  | full hr => cases hj; exact absurd (room_unbounded _) hr
  | noSep hr h1 => cases hj; cases sep_none.mp h1
  | noMore hr h1 h2 =>
    cases hj
    cases sep_none.mp h1
    rw [pat_seq, seq_cons] at h2
    simp only [seq_cons] at h2
    rcases h2 with ⟨-, h2⟩ | ⟨s', h2, ⟨-, h3⟩ | ⟨s'', h3, h4⟩⟩
    · exact .noSep hr (.sepSome h2)
    · exact .noMore hr (.sepSome h2) h3
    · cases seq_nil.mp h4
  | more hr h1 h2 _ _ _ ih =>
    cases hj
    cases sep_none.mp h1
    rw [pat_seq, seq_cons] at h2
    simp only [seq_cons] at h2
    rcases h2 with ⟨h2, -⟩ | ⟨s', h2, ⟨h3, -⟩ | ⟨s'', h3, h4⟩⟩
    · cases h2
    · cases h3
    · cases seq_nil.mp h4
      exact .more hr (.sepSome h2) h3 (ih (by omega) rfl)
  | _ => cases hj

/-- `k` more of `n`, exactly. -/
theorem more_times {v} {n : Nat} (hn : 2 ≤ n) : ∀ k m, k + m = n → 1 ≤ m → ∀ d s r,
    Parses L d (.more v none n (some n) m) s r ↔ Parses L d (.seq (List.replicate k v)) s r := by
  intro k
  induction k with
  | zero =>
    intro m hm _ d s r
    have : ¬ Room (some n) m := fun h => by have := h n rfl; omega
    rw [pats_more_iff, List.replicate_zero, seq_nil]
    simp only [this, not_false_eq_true, true_or, and_true, false_and, or_false, stop, show ¬ m < n by omega, if_false]
  | succ k ih =>
    intro m hm h1 d s r
    have hr : Room (some n) m := fun x hx => by cases hx; omega
    rw [pats_more_iff, List.replicate_succ, seq_cons]
    simp only [hr, not_true_eq_false, false_or, true_and, sep_none, reduceCtorEq, Option.some.injEq, stop, show m < n by omega, if_true, ih (m + 1) (by omega) (by omega)]
    constructor
    · rintro (⟨rfl, s', rfl, h⟩ | ⟨s', s'', rfl, h, h'⟩)
      · exact .inl ⟨rfl, h⟩
      · exact .inr ⟨s'', h, h'⟩
    · rintro (⟨rfl, h⟩ | ⟨s'', h, h'⟩)
      · exact .inl ⟨rfl, s, rfl, h⟩
      · exact .inr ⟨s, s'', rfl, h, h'⟩

/-- An alternative that can only hit where an earlier one did. -/
theorem alts_drop {xs ys zs : List Pat} {p q : Pat} (hno : ∀ s', Parses L d (.pat p) s none → ¬ Parses L d (.pat q) s (some s'))
    (hmiss : Parses L d (.pat p) s none → Parses L d (.pat q) s none) :
    Parses L d (.alts (xs ++ p :: (ys ++ q :: zs))) s r ↔ Parses L d (.alts (xs ++ p :: (ys ++ zs))) s r := by
  simp only [alts_append, alts_cons]
  constructor
  · rintro (h | ⟨h1, h | ⟨h2, h | ⟨h3, ⟨s', _, h⟩ | ⟨h4, h5⟩⟩⟩⟩)
    · exact .inl h
    · exact .inr ⟨h1, .inl h⟩
    · exact .inr ⟨h1, .inr ⟨h2, .inl h⟩⟩
    · exact absurd h (hno _ h2)
    · exact .inr ⟨h1, .inr ⟨h2, .inr ⟨h3, h5⟩⟩⟩
  · rintro (h | ⟨h1, h | ⟨h2, h | ⟨h3, h5⟩⟩⟩)
    · exact .inl h
    · exact .inr ⟨h1, .inl h⟩
    · exact .inr ⟨h1, .inr ⟨h2, .inl h⟩⟩
    · exact .inr ⟨h1, .inr ⟨h2, .inr ⟨h3, .inr ⟨hmiss h2, h5⟩⟩⟩⟩

theorem factored_miss {p : Pat} {ls : List (List Pat)} (h : Parses L d (.pat p) s none) :
    Parses L d (.alts (ls.map fun l => .seq (p :: l))) s none := by
  induction ls with
  | nil => exact .altsEnd
  | cons l ls ih => exact .altsMiss (.seq (.seqMiss h)) ih

theorem factored_hit (hnd : ((declsOf L).map (·.1)).Nodup) {p : Pat} {ls : List (List Pat)} {s' : Bytes} (h : Parses L d (.pat p) s (some s')) :
    Parses L d (.alts (ls.map fun l => .seq (p :: l))) s r ↔ Parses L d (.alts (ls.map .seq)) s' r := by
  have hp : ∀ l r, Parses L d (.pat (.seq (p :: l))) s r ↔ Parses L d (.pat (.seq l)) s' r := by
    intro l r
    rw [pat_seq, pat_seq, seq_cons]
    constructor
    · rintro (⟨-, h1⟩ | ⟨s'', h1, h2⟩)
      · cases parses_unique hnd h1 h
      · cases parses_unique hnd h1 h
        exact h2
    · exact fun h1 => .inr ⟨s', h, h1⟩
  induction ls with
  | nil => simp [alts_nil]
  | cons l ls ih => simp only [List.map_cons, alts_cons, hp, ih]

theorem not_alts {l : List Pat} : Parses L d (.pat (.not (.alt l))) s r ↔ Parses L d (.seq (l.map .not)) s r := by
  induction l generalizing s r with
  | nil => simp [pat_not, pat_alt, alts_nil, seq_nil]
  | cons p l ih =>
    rw [List.map_cons, seq_cons, pat_not, pat_not]
    simp only [← ih]
    constructor
    · rintro (⟨rfl, s', h⟩ | ⟨rfl, h⟩)
      · rcases alts_cons.mp (pat_alt.mp h) with ⟨_, _, h⟩ | ⟨h, h'⟩
        · exact .inl ⟨rfl, .inl ⟨trivial, _, h⟩⟩
        · exact .inr ⟨s, .notMiss h, .not (.alt h')⟩
      · rcases alts_cons.mp (pat_alt.mp h) with ⟨_, h1, _⟩ | ⟨h, h'⟩
        · cases h1
        · exact .inr ⟨s, .notMiss h, .notMiss (.alt h')⟩
    · rintro (⟨rfl, h⟩ | ⟨t, h, h'⟩)
      · rcases h with ⟨-, s', h⟩ | ⟨h, -⟩
        · exact .inl ⟨rfl, s', .alt (.altsHit h)⟩
        · cases h
      · rcases pat_not.mp h with ⟨h1, -⟩ | ⟨h1, h2⟩
        · cases h1
        · cases h1
          rcases pat_not.mp h' with ⟨rfl, s', h3⟩ | ⟨rfl, h3⟩
          · exact .inl ⟨rfl, s', .alt (.altsMiss h2 (pat_alt.mp h3))⟩
          · exact .inr ⟨rfl, .alt (.altsMiss h2 (pat_alt.mp h3))⟩

/-- Every law holds. -/
theorem law_same (hnd : ((declsOf L).map (·.1)).Nodup) {p q : Pat} (h : Law p q) : Same L p q := by
  intro d s r
  cases h with
  | altFlat xs ys zs => simp only [pat_alt, alts_append, alts_cons]
  | altOne =>
    rw [pat_alt, alts_cons, alts_nil]
    constructor
    · rintro (⟨s', rfl, h⟩ | ⟨h, rfl⟩) <;> exact h
    · intro h
      cases r with
      | none => exact .inr ⟨h, rfl⟩
      | some s' => exact .inl ⟨s', rfl, h⟩
  | altAgain xs p ys zs =>
    rw [pat_alt, pat_alt]
    exact alts_drop (fun s' h h' => by cases parses_unique hnd h h') id
  | altHidden xs p ys q zs =>
    rw [pat_alt, pat_alt]
    refine alts_drop (fun s' h h' => ?_) (fun h => .seq (.seqMiss h))
    rw [pat_seq, seq_cons] at h'
    rcases h' with ⟨h', -⟩ | ⟨s'', h', -⟩
    · cases h'
    · cases parses_unique hnd h h'
  | factor p l ls =>
    rw [pat_alt, pat_seq, seq_cons]
    simp only [seq_cons, pat_alt, seq_nil]
    constructor
    · intro h
      have hp : Parses L d (.pat p) s none ∨ ∃ s', Parses L d (.pat p) s (some s') := by
        rw [List.map_cons, alts_cons] at h
        simp only [pat_seq, seq_cons] at h
        rcases h with ⟨_, _, ⟨-, h⟩ | ⟨s', h, -⟩⟩ | ⟨⟨-, h⟩ | ⟨s', h, -⟩, -⟩
        · exact .inl h
        · exact .inr ⟨s', h⟩
        · exact .inl h
        · exact .inr ⟨s', h⟩
      rcases hp with hp | ⟨s', hp⟩
      · exact .inl ⟨parses_unique hnd h (factored_miss hp), hp⟩
      · refine .inr ⟨s', hp, ?_⟩
        rw [factored_hit hnd hp] at h
        cases r with
        | none => exact .inl ⟨rfl, h⟩
        | some s'' => exact .inr ⟨s'', h, rfl⟩
    · rintro (⟨rfl, hp⟩ | ⟨s', hp, ⟨rfl, h⟩ | ⟨s'', h, rfl⟩⟩)
      · exact factored_miss hp
      · exact (factored_hit hnd hp).mpr h
      · exact (factored_hit hnd hp).mpr h
  | seqFlat xs ys zs => simp only [pat_seq, seq_append, seq_cons]
  | seqOne =>
    rw [pat_seq, seq_cons]
    simp only [seq_nil]
    constructor
    · rintro (⟨rfl, h⟩ | ⟨s', h, rfl⟩) <;> exact h
    · intro h
      cases r with
      | none => exact .inl ⟨rfl, h⟩
      | some s' => exact .inr ⟨s', h, rfl⟩
  | empty => simp [pat_lit, pat_seq, seq_nil]
  | litJoin a b =>
    rw [pat_seq, seq_cons]
    simp only [seq_cons, seq_nil, pat_lit, reduceCtorEq, false_and, and_false, exists_false, false_or, or_false, Option.some.injEq, true_and]
    constructor
    · rintro (⟨rfl, h⟩ | ⟨s', ⟨t, rfl, rfl⟩, ⟨rfl, h⟩ | ⟨s'', ⟨u, rfl, hu⟩, rfl⟩⟩)
      · exact .inr ⟨rfl, fun t => by rw [List.append_assoc]; exact h _⟩
      · refine .inr ⟨rfl, fun t h' => h t ?_⟩
        rw [List.append_assoc] at h'
        exact List.append_cancel_left h'
      · cases hu; exact .inl ⟨s'', by simp, rfl⟩
    · rintro (⟨t, rfl, rfl⟩ | ⟨rfl, h⟩)
      · exact .inr ⟨b ++ t, ⟨_, by simp, rfl⟩, .inr ⟨t, ⟨_, rfl, rfl⟩, rfl⟩⟩
      · by_cases ha : ∃ t, s = a ++ t
        · obtain ⟨t, rfl⟩ := ha
          exact .inr ⟨t, ⟨t, rfl, rfl⟩, .inl ⟨rfl, fun u hu => h u (by rw [hu, List.append_assoc])⟩⟩
        · exact .inl ⟨rfl, fun t ht => ha ⟨t, ht⟩⟩
  | opt p =>
    rw [pat_opt, pat_alt, alts_cons]
    simp only [alts_cons, alts_nil, pat_seq, seq_nil, reduceCtorEq, false_and, or_false, Option.some.injEq]
    constructor
    · rintro (h | ⟨rfl, h⟩)
      · exact .inl h
      · exact .inr ⟨h, s, rfl, rfl⟩
    · rintro (h | ⟨h, _, rfl, rfl⟩)
      · exact .inl h
      · exact .inr ⟨rfl, h⟩
  | look p =>
    rw [pat_look, pat_not]
    simp only [pat_not, reduceCtorEq, false_and, true_and, false_or, or_false, Option.some.injEq]
    constructor
    · rintro (⟨rfl, h⟩ | ⟨rfl, h⟩)
      · exact .inr ⟨rfl, h⟩
      · exact .inl ⟨rfl, s, rfl, h⟩
    · rintro (⟨rfl, _, -, h⟩ | ⟨rfl, h⟩)
      · exact .inr ⟨rfl, h⟩
      · exact .inl ⟨rfl, h⟩
  | notAlt l => rw [not_alts, pat_seq]
  | plus v =>
    rw [pat_rep, pat_seq, seq_cons]
    simp only [seq_cons, seq_nil, more_star (Nat.le_refl 1)]
    constructor
    · rintro (⟨rfl, h⟩ | ⟨s', h, h'⟩)
      · exact .inl ⟨rfl, h⟩
      · refine .inr ⟨s', h, ?_⟩
        cases r with
        | none => exact .inl ⟨rfl, h'⟩
        | some s'' => exact .inr ⟨s'', h', rfl⟩
    · rintro (⟨rfl, h⟩ | ⟨s', h, ⟨rfl, h'⟩ | ⟨s'', h', rfl⟩⟩)
      · exact .inl ⟨rfl, h⟩
      · exact .inr ⟨s', h, h'⟩
      · exact .inr ⟨s', h, h'⟩
  | star v sep =>
    have hsome : ∀ {d s r n}, 1 ≤ n → Parses L d (.more v sep 1 none n) s r → r ≠ none := by
      intro d s r n hn h
      generalize hj : Job.more v sep 1 none n = j at h
      induction h generalizing n with
      | full h => cases hj; exact absurd (room_unbounded _) h
      | noSep => cases hj; rw [stop, if_neg (by omega)]; nofun
      | noMore => cases hj; rw [stop, if_neg (by omega)]; nofun
      | more _ _ _ _ _ _ ih => cases hj; exact ih (by omega) rfl
      | _ => cases hj
    rw [pat_rep, pat_opt]
    simp only [pat_rep, stop, Nat.lt_irrefl, if_false, Nat.zero_lt_one, if_true, reduceCtorEq, false_and, false_or, true_and]
    constructor
    · rintro (⟨rfl, h⟩ | ⟨s', h, h'⟩)
      · exact .inr ⟨rfl, .inl h⟩
      · have h1 := (more_count (mn' := 1) (n' := 1) (by omega) (by omega)).mp h'
        cases r with
        | none => exact absurd rfl (hsome (Nat.le_refl _) h1)
        | some s'' => exact .inl ⟨s'', rfl, s', h, h1⟩
    · rintro (⟨s'', rfl, s', h, h'⟩ | ⟨rfl, h | ⟨s', h, h'⟩⟩)
      · exact .inr ⟨s', h, (more_count (by omega) (by omega)).mp h'⟩
      · exact .inl ⟨rfl, h⟩
      · exact absurd rfl (hsome (Nat.le_refl _) h')
  | plusSep v j =>
    rw [pat_rep, pat_seq, seq_cons]
    have key : ∀ {s r}, Parses L d (.more v (some j) 1 none 1) s r ↔ Parses L d (.pat (.rep (.seq [j, v]) none 0 none)) s r := by
      intro s r
      rw [← more_star (Nat.le_refl 1)]
      exact ⟨more_join_to (Nat.le_refl 1), more_join_of (Nat.le_refl 1)⟩
    simp only [seq_cons, seq_nil, key]
    constructor
    · rintro (⟨rfl, h⟩ | ⟨s', h, h'⟩)
      · exact .inl ⟨rfl, h⟩
      · refine .inr ⟨s', h, ?_⟩
        cases r with
        | none => exact .inl ⟨rfl, h'⟩
        | some s'' => exact .inr ⟨s'', h', rfl⟩
    · rintro (⟨rfl, h⟩ | ⟨s', h, ⟨rfl, h'⟩ | ⟨s'', h', rfl⟩⟩)
      · exact .inl ⟨rfl, h⟩
      · exact .inr ⟨s', h, h'⟩
      · exact .inr ⟨s', h, h'⟩
  | times v n hn =>
    obtain ⟨k, rfl⟩ : ∃ k, n = k + 1 := ⟨n - 1, by omega⟩
    rw [pat_rep, pat_seq, List.replicate_succ, seq_cons]
    simp only [more_times hn k 1 rfl (Nat.le_refl 1), stop, Nat.succ_pos, if_true]

/-- Rewriting anywhere inside. -/
theorem rewrites_same (hnd : ((declsOf L).map (·.1)).Nodup) {p q : Pat} (h : Rewrites p q) : Same L p q := by
  induction h with
  | law h => exact law_same hnd h
  | refl => exact same_refl _
  | symm _ ih => exact fun d s r => (ih d s r).symm
  | trans _ _ ih1 ih2 => exact fun d s r => (ih1 d s r).trans (ih2 d s r)
  | alt xs zs _ ih => intro d s r; simp only [pat_alt, alts_append, alts_cons, ih d]
  | seq xs zs _ ih => intro d s r; simp only [pat_seq, seq_append, seq_cons, ih d]
  | opt _ ih => intro d s r; simp only [pat_opt, ih d]
  | not _ ih => intro d s r; simp only [pat_not, ih d]
  | look _ ih => intro d s r; simp only [pat_look, ih d]
  | rep sep mn mx _ ih =>
    intro d s r
    simp only [pat_rep, ih d]
    refine or_congr Iff.rfl (exists_congr fun s' => and_congr Iff.rfl ?_)
    exact ⟨more_congr ih (fun _ _ _ h => h) (fun _ => Iff.rfl) (fun _ _ => rfl),
      more_congr (fun d s r => (ih d s r).symm) (fun _ _ _ h => h) (fun _ => Iff.rfl) (fun _ _ => rfl)⟩
  | sep v mn mx _ ih =>
    intro d s r
    simp only [pat_rep]
    refine or_congr Iff.rfl (exists_congr fun s' => and_congr Iff.rfl ?_)
    exact ⟨more_congr (same_refl v) (fun d s r h => by rw [sep_some] at h ⊢; exact (ih d s r).mp h) (fun _ => Iff.rfl) (fun _ _ => rfl),
      more_congr (same_refl v) (fun d s r h => by rw [sep_some] at h ⊢; exact (ih d s r).mpr h) (fun _ => Iff.rfl) (fun _ _ => rfl)⟩

mutual
theorem rw_line_decls : ∀ {l l' : GLine}, RewritesLine l l' → ∀ {nm b}, (nm, b) ∈ l.decls → ∃ b', (nm, b') ∈ l'.decls ∧ RewritesBody b b'
  | _, _, .alt (nm := nm) h, nm', b, hm => by
    simp only [GLine.decls, List.mem_append] at hm
    rcases hm with hm | hm
    · split at hm
      · cases hm
      · rename_i hne
        simp only [List.mem_singleton, Prod.mk.injEq] at hm
        obtain ⟨rfl, rfl⟩ := hm
        exact ⟨_, by simp [GLine.decls, hne], h⟩
    · obtain ⟨b', hb, hr⟩ := rw_body_decls h hm
      exact ⟨b', by simp [GLine.decls, hb], hr⟩
  | _, _, .incl (nm := nm) h, nm', b, hm => by
    simp only [GLine.decls, List.mem_cons, Prod.mk.injEq] at hm
    rcases hm with ⟨rfl, rfl⟩ | hm
    · exact ⟨_, by simp [GLine.decls], h⟩
    · obtain ⟨b', hb, hr⟩ := rw_body_decls h hm
      exact ⟨b', by simp [GLine.decls, hb], hr⟩
theorem rw_body_decls : ∀ {c c' : Body}, RewritesBody c c' → ∀ {nm b}, (nm, b) ∈ c.decls → ∃ b', (nm, b') ∈ c'.decls ∧ RewritesBody b b'
  | _, _, .text _, _, _, hm => by cases hm
  | _, _, .rank h, _, _, hm => by
    simp only [Body.decls] at hm ⊢
    exact rw_lines_decls h hm
theorem rw_lines_decls : ∀ {ls ls' : List GLine}, RewritesLines ls ls' → ∀ {nm b}, (nm, b) ∈ declsOf ls → ∃ b', (nm, b') ∈ declsOf ls' ∧ RewritesBody b b'
  | _, _, .nil, _, _, hm => by cases hm
  | _, _, .cons h hs, _, _, hm => by
    simp only [declsOf, List.mem_append] at hm
    rcases hm with hm | hm
    · obtain ⟨b', hb, hr⟩ := rw_line_decls h hm
      exact ⟨b', by simp [declsOf, hb], hr⟩
    · obtain ⟨b', hb, hr⟩ := rw_lines_decls hs hm
      exact ⟨b', by simp [declsOf, hb], hr⟩
end

mutual
theorem rw_line_names : ∀ {l l' : GLine}, RewritesLine l l' → l.decls.map (·.1) = l'.decls.map (·.1)
  | _, _, .alt h => by
    simp only [GLine.decls, List.map_append, rw_body_names h]
    split <;> rfl
  | _, _, .incl h => by simp only [GLine.decls, List.map_cons, rw_body_names h]
theorem rw_body_names : ∀ {c c' : Body}, RewritesBody c c' → c.decls.map (·.1) = c'.decls.map (·.1)
  | _, _, .text _ => rfl
  | _, _, .rank h => by simp only [Body.decls, rw_lines_names h]
theorem rw_lines_names : ∀ {ls ls' : List GLine}, RewritesLines ls ls' → (declsOf ls).map (·.1) = (declsOf ls').map (·.1)
  | _, _, .nil => rfl
  | _, _, .cons h hs => by simp only [declsOf, List.map_append, rw_line_names h, rw_lines_names hs]
end

mutual
theorem rw_line_named : ∀ {l l' : GLine}, RewritesLine l l' → l.Named → l'.Named
  | _, _, .alt h, hn => by simp only [GLine.Named] at hn ⊢; exact rw_body_named h hn
  | _, _, .incl h, hn => by simp only [GLine.Named] at hn ⊢; exact ⟨hn.1, rw_body_named h hn.2⟩
theorem rw_body_named : ∀ {c c' : Body}, RewritesBody c c' → c.Named → c'.Named
  | _, _, .text _, _ => trivial
  | _, _, .rank h, hn => by simp only [Body.Named] at hn ⊢; exact rw_lines_named h hn
theorem rw_lines_named : ∀ {ls ls' : List GLine}, RewritesLines ls ls' → NamedLines ls → NamedLines ls'
  | _, _, .nil, _ => trivial
  | _, _, .cons h hs, hn => ⟨rw_line_named h hn.1, rw_lines_named hs hn.2⟩
end

mutual
theorem rw_line_symm : ∀ {l l' : GLine}, RewritesLine l l' → RewritesLine l' l
  | _, _, .alt h => .alt (rw_body_symm h)
  | _, _, .incl h => .incl (rw_body_symm h)
theorem rw_body_symm : ∀ {c c' : Body}, RewritesBody c c' → RewritesBody c' c
  | _, _, .text h => .text h.symm
  | _, _, .rank h => .rank (rw_lines_symm h)
theorem rw_lines_symm : ∀ {ls ls' : List GLine}, RewritesLines ls ls' → RewritesLines ls' ls
  | _, _, .nil => .nil
  | _, _, .cons h hs => .cons (rw_line_symm h) (rw_lines_symm hs)
end

/-- The same thing to match, in the other grammar. -/
inductive JobRel : Job → Job → Prop
  | pat {p} : JobRel (.pat p) (.pat p)
  | alts {l} : JobRel (.alts l) (.alts l)
  | seq {l} : JobRel (.seq l) (.seq l)
  | sep {o} : JobRel (.sep o) (.sep o)
  | more {v sep mn mx n} : JobRel (.more v sep mn mx n) (.more v sep mn mx n)
  | body {b b'} : RewritesBody b b' → JobRel (.body b) (.body b')
  | lines {ls ls'} : RewritesLines ls ls' → JobRel (.lines ls) (.lines ls')

/-- A grammar with its texts rewritten matches the same. -/
theorem rewritten_parses {L L' : List GLine} (hL : RewritesLines L L') (hnd : ((declsOf L').map (·.1)).Nodup) {d : Nat} {j : Job} {s : Bytes}
    {r : Option Bytes} (h : Parses L d j s r) : ∀ {j'}, JobRel j j' → Parses L' d j' s r := by
  induction h with
  | lit => intro _ h; cases h; exact .lit
  | litMiss h => intro _ hj; cases hj; exact .litMiss h
  | re h => intro _ hj; cases hj; exact .re h
  | reMiss h => intro _ hj; cases hj; exact .reMiss h
  | name hm _ ih =>
    intro _ hj
    cases hj
    obtain ⟨b', hb, hr⟩ := rw_lines_decls hL hm
    exact .name hb (ih (.body hr))
  | alt _ ih => intro _ hj; cases hj; exact .alt (ih .alts)
  | altsEnd => intro _ hj; cases hj; exact .altsEnd
  | altsHit _ ih => intro _ hj; cases hj; exact .altsHit (ih .pat)
  | altsMiss _ _ ih1 ih2 => intro _ hj; cases hj; exact .altsMiss (ih1 .pat) (ih2 .alts)
  | seq _ ih => intro _ hj; cases hj; exact .seq (ih .seq)
  | seqEnd => intro _ hj; cases hj; exact .seqEnd
  | seqMiss _ ih => intro _ hj; cases hj; exact .seqMiss (ih .pat)
  | seqNext _ _ ih1 ih2 => intro _ hj; cases hj; exact .seqNext (ih1 .pat) (ih2 .seq)
  | opt _ ih => intro _ hj; cases hj; exact .opt (ih .pat)
  | optMiss _ ih => intro _ hj; cases hj; exact .optMiss (ih .pat)
  | not _ ih => intro _ hj; cases hj; exact .not (ih .pat)
  | notMiss _ ih => intro _ hj; cases hj; exact .notMiss (ih .pat)
  | look _ ih => intro _ hj; cases hj; exact .look (ih .pat)
  | lookMiss _ ih => intro _ hj; cases hj; exact .lookMiss (ih .pat)
  | rep0 _ ih => intro _ hj; cases hj; exact .rep0 (ih .pat)
  | rep _ _ ih1 ih2 => intro _ hj; cases hj; exact .rep (ih1 .pat) (ih2 .more)
  | sepNone => intro _ hj; cases hj; exact .sepNone
  | sepSome _ ih => intro _ hj; cases hj; exact .sepSome (ih .pat)
  | full h => intro _ hj; cases hj; exact .full h
  | noSep h _ ih => intro _ hj; cases hj; exact .noSep h (ih .sep)
  | noMore h _ _ ih1 ih2 => intro _ hj; cases hj; exact .noMore h (ih1 .sep) (ih2 .pat)
  | more h _ _ _ ih1 ih2 ih3 => intro _ hj; cases hj; exact .more h (ih1 .sep) (ih2 .pat) (ih3 .more)
  | text _ ih =>
    intro _ hj
    cases hj with
    | body hb =>
      cases hb with
      | text hr => exact .text ((rewrites_same hnd hr _ _ _).mp (ih .pat))
  | rank _ ih =>
    intro _ hj
    cases hj with
    | body hb =>
      cases hb with
      | rank hr => exact .rank (ih (.lines hr))
  | linesEnd => intro _ hj; cases hj with | lines h => cases h; exact .linesEnd
  | incl _ ih =>
    intro _ hj
    cases hj with
    | lines h =>
      cases h with
      | cons h hs => cases h; exact .incl (ih (.lines hs))
  | altHit _ ih =>
    intro _ hj
    cases hj with
    | lines h =>
      cases h with
      | cons h hs => cases h with | alt h => exact .altHit (ih (.body h))
  | altMiss _ _ ih1 ih2 =>
    intro _ hj
    cases hj with
    | lines h =>
      cases h with
      | cons h hs => cases h with | alt h => exact .altMiss (ih1 (.body h)) (ih2 (.lines hs))

end Joeson.RuleText
