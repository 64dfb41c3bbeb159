import Verif.App.Props
import Verif.App.MainModel

/-! # C192: the exit status of the program -/

namespace TQ
open PR PRSpec App

theorem App.loop_all (construct : Nat → Nat × Nat → Option Bool) (sk ek : Line) (file : List Line) : ∀ (bs : List (Nat × Nat)) (n id : Nat) (ok : Bool) (b : Block),
    b.startKey = sk → b.endKey = ek → b.cur.be ≤ file.length → Blocks sk ek file (b.pos file) bs → bs.length < n →
    ((loop construct file n id ok b).exc = false ∧ (loop construct file n id ok b).ret = true ↔
      ok = true ∧ ∀ (k : Nat) (r : Nat × Nat), bs[k]? = some r → construct (id + k) r = some true) := by
  intro bs
  induction bs with
  | nil =>
    rintro n id ok b rfl rfl hb hbs hn
    obtain ⟨n, rfl⟩ : ∃ m, n = m + 1 := ⟨n - 1, by simp at hn; omega⟩
    cases hbs with
    | nil hno =>
      rcases queryBlock_spec file b hb with ⟨s, e, h, -⟩ | ⟨-, c, h1, -⟩
      · exact (hno s e h).elim
      · simp [loop, h1]
  | cons r bs ih =>
    rintro n id ok b rfl rfl hb hbs hn
    obtain ⟨n, rfl⟩ : ∃ m, n = m + 1 := ⟨n - 1, by simp at hn; omega⟩
    cases hbs with
    | @cons pos s e bs' hne ht =>
      rcases queryBlock_spec file b hb with ⟨s', e', h, hlt, ix, h1⟩ | ⟨hno, -⟩
      · obtain rfl := first_unique h.1 hne.1
        obtain rfl := first_unique h.2 hne.2
        cases hv : construct id (s', e') with
        | none =>
          simp only [loop, h1, hv, Bool.true_eq_false, Bool.false_eq_true, and_false, false_iff]
          rintro ⟨-, a⟩
          have := a 0 _ rfl
          rw [Nat.add_zero, hv] at this
          cases this
        | some v =>
          have hpos : Block.pos file { b with cur := ⟨s', e', ix⟩, paras := b.paras.map fun _ => ⟨s', e', 0⟩ } = e' := by
            simp [Block.pos, hlt]
          have g := ih n (id + 1) (ok && v) { b with cur := ⟨s', e', ix⟩, paras := b.paras.map fun _ => ⟨s', e', 0⟩ } rfl rfl hlt.le
            (by rw [hpos]; exact ht) (by simp at hn; omega)
          simp only [loop, h1, hv]
          rw [g, Bool.and_eq_true]
          constructor
          · rintro ⟨⟨a1, a2⟩, a3⟩
            refine ⟨a1, fun k r hr => ?_⟩
            cases k with
            | zero =>
              simp only [List.getElem?_cons_zero, Option.some.injEq] at hr
              subst hr
              rw [Nat.add_zero, hv, a2]
            | succ k =>
              rw [show id + (k + 1) = id + 1 + k by omega]
              exact a3 k r (by simpa using hr)
          · rintro ⟨a1, a2⟩
            refine ⟨⟨a1, ?_⟩, fun k r hr => ?_⟩
            · have := a2 0 _ rfl
              rw [Nat.add_zero, hv] at this
              simpa using this
            · have := a2 (k + 1) r (by simpa using hr)
              rwa [show id + (k + 1) = id + 1 + k by omega] at this
      · exact (hno _ _ hne).elim

/-- **C192.** With a file on the command line, the program ends with the status 0 just if the file can be read and all the definitions in it give a mesh; any exception, in whichever definition, gives
the status 1. The arguments behind the first one have no influence. -/
theorem C192_status_partial (construct : List Line → Nat → Nat × Nat → Option Bool) (files : List Char → Option (List Line)) (name path : List Char) (more : List (List Char)) :
    (mainStatus construct files (name :: path :: more) = 0 ∨ mainStatus construct files (name :: path :: more) = 1) ∧
    (∀ file bs, files path = some file → Blocks "Define mesh:".toList "End mesh".toList (readContent file) 0 bs →
      (mainStatus construct files (name :: path :: more) = 0 ↔ ∀ (k : Nat) (r : Nat × Nat), bs[k]? = some r → construct (readContent file) k r = some true)) ∧
    (files path = none → mainStatus construct files (name :: path :: more) = 1) := by
  refine ⟨?_, fun file bs hf hbs => ?_, fun hf => by simp [mainStatus, hf]⟩
  · simp only [mainStatus]
    split
    · exact Or.inr rfl
    · split_ifs <;> simp
  · have hlen : bs.length < (readContent file).length + 1 := by
      rcases blocks_length hbs with rfl | h
      · simp
      · omega
    have h := loop_all (construct (readContent file)) "Define mesh:".toList "End mesh".toList (readContent file) bs ((readContent file).length + 1) 0 true
      ⟨"Define mesh:".toList, "End mesh".toList, ⟨0, (readContent file).length, 0⟩, []⟩ rfl rfl le_rfl (by simpa [Block.pos] using hbs) hlen
    simp only [true_and, Nat.zero_add] at h
    rw [← h]
    change (match files path with
      | none => 1
      | some file =>
        if (run (construct (readContent file)) (readContent file)).exc then 1 else if (run (construct (readContent file)) (readContent file)).ret then 0 else 1) = 0 ↔
      (run (construct (readContent file)) (readContent file)).exc = false ∧ (run (construct (readContent file)) (readContent file)).ret = true
    rw [hf]
    dsimp only
    generalize run (construct (readContent file)) (readContent file) = r
    rcases r with ⟨_ | _, _ | _, c⟩ <;> simp

/-- The file of C137 with two definitions: an exception in the second one gives the status 1. -/
example : mainStatus (fun _ _ _ => some true) (fun _ => some demo) ["TQMesh".toList, "a".toList] = 0 ∧
    mainStatus (fun _ k _ => if k = 0 then some true else none) (fun _ => some demo) ["TQMesh".toList, "a".toList] = 1 ∧
    mainStatus (fun _ k _ => some (k == 1)) (fun _ => some demo) ["TQMesh".toList, "a".toList] = 1 := by decide +kernel

/-- **C192 is violated without a file and for files without a mesh:** the status is 0 although no mesh was made. -/
theorem C192_nothing_violated (construct : List Line → Nat → Nat × Nat → Option Bool) (files : List Char → Option (List Line)) (name path : List Char) :
    mainStatus construct files [name] = 0 ∧ (files path = some [] → mainStatus construct files [name, path] = 0) ∧
    (files path = some ["Define mesh:".toList, "Element size: 1".toList] → mainStatus construct files [name, path] = 0) := by
  refine ⟨rfl, fun h => ?_, fun h => ?_⟩
  · have e : readContent [] = [] := rfl
    have hn : ∀ s e, ¬Next "Define mesh:".toList "End mesh".toList ([] : List Line) 0 s e := by
      rintro s e ⟨h1, -⟩
      have := has_lt h1.2.1
      simp at this
    exact ((C192_status_partial construct files name path []).2.1 [] [] h (by rw [e]; exact .nil hn)).mpr (by simp)
  · simp only [mainStatus, h, show readContent ["Define mesh:".toList, "Element size: 1".toList] = ["Define mesh:".toList, "Element size: 1".toList] by decide +kernel,
      C137_violated]
    simp

end TQ

#print axioms TQ.C192_status_partial
#print axioms TQ.C192_nothing_violated
