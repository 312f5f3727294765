import Verif.Props.Heap
/-!
# C42: spliced parts that are missing
-/

namespace Joeson

/-- C42: a part labelled `@` that is undefined, such as an optional part that is not there, changes nothing: neither what the sequence has collected
nor any map. And so for a part labelled `&` as long as nothing was collected. -/
theorem C42_spliced_missing (cb : Nat → Val → Nat → Store → Except Panic (Option Val × Store)) (i : Info) (acc : SeqAcc Val) (h : Store)
    (hi : i.label = "@" ∨ (i.label = "&" ∧ ∀ v, acc.one = some v → v = .undef)) :
    ∃ acc', seqAdd (heapOps cb) .object i acc .undef h = .ok (acc', h) ∧
      (∀ v, v ≠ .undef → (acc'.one = some v ↔ acc.one = some v)) ∧
      acc'.cur (heapOps cb) = acc.cur (heapOps cb) := by
  have hu : (heapOps cb).isUndef .undef = true := rfl
  have hd : ∀ v : Val, v ≠ .undef → (heapOps cb).isUndef v = false := by
    intro v hv
    cases v <;> first | rfl | exact absurd rfl hv
  have hcur : acc.cur (heapOps cb) = none → ∀ v, acc.one = some v → v = .undef := by
    intro hc v hv
    apply Classical.byContradiction
    intro hne
    unfold SeqAcc.cur at hc
    rw [hv] at hc
    dsimp only at hc
    rw [hd v hne] at hc
    cases hc
  have none_case : (∀ v, acc.one = some v → v = .undef) →
      (∀ v, v ≠ Val.undef → (({ acc with one := some .undef } : SeqAcc Val).one = some v ↔ acc.one = some v)) ∧
      ({ acc with one := some .undef } : SeqAcc Val).cur (heapOps cb) = acc.cur (heapOps cb) := by
    intro hv
    refine ⟨fun v hne => ⟨fun e => absurd (Option.some.inj e).symm hne, fun e => absurd (hv v e) hne⟩, ?_⟩
    unfold SeqAcc.cur
    dsimp only
    rw [hu, if_pos rfl]
    cases ho : acc.one with
    | none => rfl
    | some v => rw [hv v ho]; rfl
  unfold seqAdd
  dsimp only
  rcases hi with hi | ⟨hi, hv⟩
  · rw [if_neg (by rw [hi]; decide), if_pos hi]
    cases hc : acc.cur (heapOps cb) with
    | none => exact ⟨_, rfl, hc ▸ none_case (hcur hc)⟩
    | some r =>
      refine ⟨{ acc with one := some r }, rfl, ?_, ?_⟩
      · have : acc.one = some r := by
          unfold SeqAcc.cur at hc
          split at hc
          · cases hc
          · split at hc
            · cases hc
            · cases hc; assumption
        intro v _
        rw [this]
      · have hr : (heapOps cb).isUndef r = false := by
          unfold SeqAcc.cur at hc
          split at hc
          · cases hc
          · split at hc
            · cases hc
            · cases hc
              rename_i hx
              exact Bool.eq_false_iff.mpr hx
        unfold SeqAcc.cur
        dsimp only
        rw [hr]; rfl
  · rw [if_pos hi]
    have hc : acc.cur (heapOps cb) = none := by
      unfold SeqAcc.cur
      cases ho : acc.one with
      | none => rfl
      | some v => rw [hv v ho]; rfl
    rw [hc]
    dsimp only
    exact ⟨_, rfl, hc ▸ none_case hv⟩

/-- `S: @:A? k:'b'` with `A: j:'a'`. -/
def Sample.optSpliced : Grammar :=
  { rules := [.seq { name := "S" } .object [.exist { label := "@" } (.rule 1), .str { label := "k" } (asc "b")],
      .seq { name := "A" } .object [.str { label := "j" } (asc "a")]],
    lookup := fun _ => none, root := .rule 0 }

example : Sample.shown (parseString (heapOps Sample.noCbH) Sample.optSpliced {} [] 60 Store.empty (asc "b")) = some (.map [("k", .str (asc "b"))]) ∧
    Sample.shown (parseString (heapOps Sample.noCbH) Sample.optSpliced {} [] 60 Store.empty (asc "ab")) =
      some (.map [("j", .str (asc "a")), ("k", .str (asc "b"))]) := by
  decide +kernel

end Joeson
