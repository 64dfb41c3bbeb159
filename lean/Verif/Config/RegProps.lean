import Verif.Config.RegModel

/-!
# C185: parameters are found under the name they were registered with

For every list of registrations: they are all accepted if and only if no name occurs twice and no key is
empty, and then a look-up gives the entry registered under the name.  The registrations of the application
are accepted, and each of its accesses has the type of the registration and reads only columns of it, so that
no access is undefined, throws, or is answered with the first value (src/utils/ParaReader.h:244-245) because the
index is too large.
-/

set_option linter.unusedSectionVars false

namespace TQ
open Rg PR

/-- What the program relies on: the keys of an entry are not empty. -/
def KeysGiven : Entry → Prop
  | .par _ k s e _ => s ≠ [] ∧ (k = .matrix → e ≠ [])
  | .block s e => s ≠ [] ∧ e ≠ []

namespace Rg

theorem keysOK_iff (e : Entry) : keysOK e = true ↔ KeysGiven e := by
  have hl : ∀ l : Line, 1 ≤ l.length ↔ l ≠ [] := fun l => by
    rw [Nat.one_le_iff_ne_zero, Ne, List.length_eq_zero_iff]
  cases e with
  | par t k s e c => cases k <;> simp [keysOK, KeysGiven, hl]
  | block s e => simp [keysOK, KeysGiven, hl]

theorem lookup_assign (m : List (Line × Nat)) (n k : Line) (i : Nat) :
    lookup (assign m n i) k = if k = n then some i else lookup m k := by
  induction m with
  | nil =>
    simp only [assign, lookup]
    by_cases h : k = n
    · subst h; simp
    · simp [h, Ne.symm h]
  | cons a m ih =>
    obtain ⟨q, j⟩ := a
    simp only [assign]
    by_cases hq : q = n
    · subst hq
      simp only [if_true, lookup]
      by_cases h : k = q
      · subst h; simp
      · simp [h, Ne.symm h]
    · simp only [hq, if_false, lookup]
      by_cases h : q = k
      · subst h; simp [hq]
      · simp only [h, if_false, ih]

/-- The registry represents the list of registrations. -/
def Rep (r : Reg) (h : List (Line × Entry)) : Prop :=
  (∀ n, lookup r.map n = none ↔ n ∉ h.map Prod.fst) ∧
  (∀ n i, lookup r.map n = some i → ∃ e, r.list[i]? = some e ∧ (n, e) ∈ h)

theorem rep_register {r r' : Reg} {h : List (Line × Entry)} {n : Line} {e : Entry} (hr : Rep r h)
    (he : register r n e = some r') : Rep r' (h ++ [(n, e)]) := by
  unfold register at he
  split at he
  · exact absurd he (by simp)
  rename_i h1
  split at he
  · exact absurd he (by simp)
  simp only [Option.some.injEq] at he
  subst he
  refine ⟨fun k => ?_, fun k i hk => ?_⟩
  · simp only [lookup_assign, List.map_append, List.map_cons, List.map_nil, List.mem_append,
      List.mem_singleton, not_or]
    by_cases hkn : k = n
    · simp [hkn]
    · simp [hkn, hr.1 k]
  · simp only [lookup_assign] at hk
    by_cases hkn : k = n
    · simp only [hkn, if_true, Option.some.injEq] at hk
      subst hk
      exact ⟨e, by simp, by simp [hkn]⟩
    · simp only [hkn, if_false] at hk
      obtain ⟨e', h2, h3⟩ := hr.2 k i hk
      refine ⟨e', ?_, by simp [h3]⟩
      have hlt := (List.getElem?_eq_some_iff.1 h2).1
      change (r.list ++ [e])[i]? = some e'
      rw [List.getElem?_append_left hlt]
      exact h2

theorem registerAll_isSome {r : Reg} {h : List (Line × Entry)} (hr : Rep r h) (l : List (Line × Entry)) :
    (∃ r', registerAll r l = some r') ↔
      (l.map Prod.fst).Nodup ∧ (∀ x ∈ l, x.1 ∉ h.map Prod.fst) ∧ ∀ x ∈ l, KeysGiven x.2 := by
  induction l generalizing r h with
  | nil => simp [registerAll]
  | cons a l ih =>
    obtain ⟨n, e⟩ := a
    simp only [registerAll]
    by_cases h1 : n ∈ h.map Prod.fst
    · have : (lookup r.map n).isSome = true := by
        rw [Option.isSome_iff_ne_none]
        exact fun hc => (hr.1 n).1 hc h1
      constructor
      · rintro ⟨r', h2⟩
        simp [register, this] at h2
      · rintro ⟨_, h2, _⟩
        exact absurd h1 (h2 (n, e) List.mem_cons_self)
    · have hnone : lookup r.map n = none := (hr.1 n).2 h1
      by_cases h2 : KeysGiven e
      · have hk := (keysOK_iff e).2 h2
        have hreg : register r n e = some ⟨r.list ++ [e], assign r.map n ((r.list ++ [e]).length - 1)⟩ := by
          simp [register, hnone, hk]
        rw [hreg]
        simp only
        rw [ih (rep_register hr hreg)]
        simp only [List.map_cons, List.nodup_cons, List.map_append, List.map_nil, List.mem_append,
          List.mem_singleton, List.mem_cons, not_or, forall_eq_or_imp, List.mem_map, Prod.exists]
        constructor
        · rintro ⟨a1, a2, a3⟩
          refine ⟨⟨?_, a1⟩, ⟨?_, fun x hx => ?_⟩, h2, a3⟩
          · rintro ⟨n', e', hm, rfl⟩
            exact (a2 _ hm).2.1 rfl
          · rintro ⟨n', e', hm, rfl⟩
            exact h1 (List.mem_map.2 ⟨_, hm, rfl⟩)
          · exact (a2 x hx).1
        · rintro ⟨⟨a0, a1⟩, ⟨_, a2⟩, _, a3⟩
          refine ⟨a1, fun x hx => ⟨a2 x hx, fun hc => a0 ⟨x.1, x.2, hx, hc⟩, by simp⟩, a3⟩
      · have hk : keysOK e = false := by
          rw [← Bool.not_eq_true, keysOK_iff]; exact h2
        constructor
        · rintro ⟨r', h3⟩
          simp [register, hnone, hk] at h3
        · rintro ⟨_, _, h3⟩
          exact absurd (h3 (n, e) List.mem_cons_self) h2

theorem rep_registerAll {r r' : Reg} {h : List (Line × Entry)} (hr : Rep r h) (l : List (Line × Entry))
    (he : registerAll r l = some r') : Rep r' (h ++ l) := by
  induction l generalizing r h with
  | nil =>
    simp only [registerAll, Option.some.injEq] at he
    subst he; simpa using hr
  | cons a l ih =>
    obtain ⟨n, e⟩ := a
    simp only [registerAll] at he
    rcases h1 : register r n e with _ | q
    · rw [h1] at he; exact absurd he (by simp)
    · rw [h1] at he
      have := ih (rep_register hr h1) he
      simpa using this

theorem rep_nil : Rep {} [] := ⟨fun n => by simp [lookup], fun n i h => by simp [lookup] at h⟩

theorem unique {l : List (Line × Entry)} (h : (l.map Prod.fst).Nodup) {n : Line} {e f : Entry}
    (he : (n, e) ∈ l) (hf : (n, f) ∈ l) : e = f := by
  induction l with
  | nil => simp at he
  | cons x xs ih =>
    rw [List.map_cons, List.nodup_cons] at h
    rcases List.mem_cons.1 he with h1 | h1 <;> rcases List.mem_cons.1 hf with h2 | h2
    · rw [← h1] at h2; exact (Prod.mk.inj h2).2.symm
    · exact absurd (List.mem_map.2 ⟨_, h2, by rw [← h1]⟩) h.1
    · exact absurd (List.mem_map.2 ⟨_, h1, by rw [← h2]⟩) h.1
    · exact ih h.2 h1 h2

end Rg

/-- **C185**: registrations are accepted exactly if the names differ and no key is empty. -/
theorem C185_register (l : List (Line × Entry)) :
    (∃ r, registerAll {} l = some r) ↔ (l.map Prod.fst).Nodup ∧ ∀ x ∈ l, KeysGiven x.2 := by
  rw [registerAll_isSome rep_nil]
  simp

/-- **C185**: a look-up with the type of the registration gives the parameter that was registered under the
name, whatever was registered before and afterwards.  With another type, or for a block, it is undefined; for
a name that was not registered an exception is thrown. -/
theorem C185_lookup {l : List (Line × Entry)} {r : Reg} (hr : registerAll {} l = some r) (t : Ty) (n : Line) :
    (∀ k s e c, getPara r t n = .entry (.par t k s e c) ↔ (n, .par t k s e c) ∈ l) ∧
    (getPara r t n = .error ↔ n ∉ l.map Prod.fst) ∧
    (getPara r t n = .ub ↔ ∃ x, (n, x) ∈ l ∧ ∀ k s e c, x ≠ .par t k s e c) ∧
    (∀ s e, getBlock r n = .entry (.block s e) ↔ (n, .block s e) ∈ l) := by
  have hrep := rep_registerAll rep_nil l hr
  rw [List.nil_append] at hrep
  have hnd := ((C185_register l).1 ⟨r, hr⟩).1
  rcases hl : lookup r.map n with _ | i
  · have hn := (hrep.1 n).1 hl
    have hno : ∀ x, (n, x) ∉ l := fun x hx => hn (List.mem_map.2 ⟨_, hx, rfl⟩)
    refine ⟨fun k s e c => ?_, ?_, ?_, fun s e => ?_⟩ <;> simp [getPara, getBlock, hl, hno]
  · obtain ⟨x, hx, hm⟩ := hrep.2 n i hl
    have hin : n ∈ l.map Prod.fst := List.mem_map.2 ⟨_, hm, rfl⟩
    have hu : ∀ y, (n, y) ∈ l ↔ y = x := fun y => ⟨fun hy => Rg.unique hnd hy hm, fun hy => hy ▸ hm⟩
    have hin' : ¬ n ∉ l.map Prod.fst := fun h => h hin
    refine ⟨fun k s e c => ?_, ?_, ?_, fun s e => ?_⟩
    · rw [hu]
      cases x with
      | par t' k' s' e' c' =>
        simp only [getPara, hl, hx]
        split
        · rename_i h; subst h; simp only [Got.entry.injEq]; exact ⟨fun h => h.symm, fun h => h.symm⟩
        · rename_i h
          constructor
          · intro hc; exact absurd hc (by simp)
          · intro hc; simp only [Entry.par.injEq] at hc; exact absurd hc.1.symm h
      | block s' e' => simp [getPara, hl, hx]
    · constructor
      · intro hc
        exfalso
        cases x with
        | par t' k' s' e' c' =>
          simp only [getPara, hl, hx] at hc
          split at hc <;> exact absurd hc (by simp)
        | block s' e' => simp [getPara, hl, hx] at hc
      · intro hc; exact absurd hin hc
    · simp only [hu, exists_eq_left]
      cases x with
      | par t' k' s' e' c' =>
        simp only [getPara, hl, hx]
        split
        · rename_i h; subst h
          constructor
          · intro hc; exact absurd hc (by simp)
          · intro hc; exact absurd rfl (hc k' s' e' c')
        · rename_i h
          simp only [true_iff]
          intro k s e c hc
          simp only [Entry.par.injEq] at hc
          exact h hc.1
      | block s' e' => simp [getPara, hl, hx]
    · rw [hu]
      cases x with
      | par t' k' s' e' c' => simp [getBlock, hl, hx]
      | block s' e' =>
        simp only [getBlock, hl, hx, Got.entry.injEq]
        exact ⟨fun h => h.symm, fun h => h.symm⟩

set_option maxRecDepth 8000 in
/-- **C185**: the registrations of the application are accepted. -/
theorem C185_app : (∃ r, registerAll {} appBlocks = some r) ∧ ∃ r, registerAll {} appNames = some r := by
  refine ⟨⟨_, rfl⟩, ?_⟩
  rw [C185_register]
  refine ⟨by decide +kernel, ?_⟩
  intro x hx
  rw [← keysOK_iff]
  revert x
  decide +kernel

/-- The number of columns of a parameter; a block has none. -/
def colsOf : Entry → Nat
  | .par _ _ _ _ c => c
  | .block _ _ => 0

set_option maxRecDepth 8000 in
/-- **C185**: every access of the application to a parameter of a mesh finds it, and the columns that are read are
columns of the parameter. -/
theorem C185_accesses {r : Reg} (hr : registerAll {} appNames = some r) :
    ∀ a ∈ appAccesses, ∃ e, getPara r a.2.1 a.1 = .entry e ∧ a.2.2 ≤ colsOf e := by
  have key : ∀ a ∈ appAccesses, ∃ x ∈ appNames, x.1 = a.1 ∧
      (∃ k s e c, x.2 = .par a.2.1 k s e c) ∧ a.2.2 ≤ colsOf x.2 := by
    have : ∀ a ∈ appAccesses, appNames.any (fun x => decide (x.1 = a.1) &&
        (match x.2 with
          | .par t _ _ _ _ => decide (t = a.2.1)
          | .block _ _ => false) && decide (a.2.2 ≤ colsOf x.2)) = true := by decide +kernel
    intro a ha
    obtain ⟨x, hx, hb⟩ := List.any_eq_true.1 (this a ha)
    obtain ⟨n, e⟩ := x
    simp only [Bool.and_eq_true, decide_eq_true_eq] at hb
    refine ⟨(n, e), hx, hb.1.1, ?_, hb.2⟩
    cases e with
    | par t k s e c =>
      have h2 := hb.1.2
      simp only [decide_eq_true_eq] at h2
      exact ⟨k, s, e, c, by rw [← h2]⟩
    | block s e => simp at hb
  intro a ha
  obtain ⟨⟨n, e⟩, hx, hn, ⟨k, s, e', c, he⟩, hc⟩ := key a ha
  simp only at hn he hc
  subst he
  subst hn
  exact ⟨_, ((C185_lookup hr a.2.1 a.1).1 k s e' c).2 hx, hc⟩

/-- The names of the model of the application. -/
def allNames : List Cf.Name :=
  [.outPrefix, .outFormat, .vertices, .size, .color, .algorithm, .refinements, .smoothing, .smoothLayers, .layers,
    .fixedVerts, .fixedEdges, .csv .exterior, .csv .interior, .edges .exterior, .edges .interior,
    .coords .exterior, .coords .interior, .rect .exterior, .rect .interior, .circ .exterior, .circ .interior,
    .square .exterior, .square .interior, .triangle .exterior, .triangle .interior]

theorem mem_allNames (n : Cf.Name) : n ∈ allNames := by
  cases n <;> first
    | (rename_i b; cases b <;> decide)
    | decide

set_option maxRecDepth 8000 in
/-- **C185**: the parameter that is found under a name is the one of the model of the application (`Cf.Name.para`),
with its kind, its keys and its number of columns. -/
theorem C185_config {r : Reg} (hr : registerAll {} appNames = some r) (n : Cf.Name) {T : Type} (z : T) :
    getPara r (fieldOf n) (text n) =
      .entry (.par (fieldOf n) (n.para z).kind (n.para z).startKey (n.para z).endKey (n.para z).ncol) := by
  have key : ∀ n ∈ allNames,
      (text n, Entry.par (fieldOf n) n.kind n.startKey n.endKey n.cols) ∈ appNames := by decide +kernel
  exact ((C185_lookup hr (fieldOf n) (text n)).1 _ _ _ _).2 (key n (mem_allNames n))

/-! ## The hypotheses can be met, and the cases occur -/

example : ∃ r, registerAll {} [("a".toList, .par .dbl .vector "A:".toList [] 3),
      ("b".toList, .par .int .scalar "B:".toList [] 1)] = some r ∧
    getPara r .dbl "a".toList = .entry (.par .dbl .vector "A:".toList [] 3) ∧
    getPara r .int "a".toList = .ub ∧ getPara r .int "c".toList = .error :=
  ⟨_, rfl, rfl, rfl, rfl⟩

example : registerAll {} [("a".toList, .par .dbl .vector "A:".toList [] 3),
    ("a".toList, .par .int .scalar "B:".toList [] 1)] = none := rfl

example : registerAll {} [("a".toList, .par .dbl .matrix "A:".toList [] 3)] = none := rfl

end TQ

#print axioms TQ.C185_register
#print axioms TQ.C185_lookup
#print axioms TQ.C185_app
#print axioms TQ.C185_accesses
#print axioms TQ.C185_config
