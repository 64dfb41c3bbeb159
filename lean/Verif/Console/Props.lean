import Verif.Console.Lemmas
import Mathlib.Data.List.Perm.Subperm

/-!
# Properties of the console output (C182, C183)

**C182.** The program is used as `TQMesh "Input-File" > "Output-Mesh"`. The full statement, that the redirected output is the mesh, is violated: log lines
precede it. What holds is that the mesh is recovered by dropping the lines that begin with the escape character or with `#`.

**C183.** Progress bars never run backwards, and each covers the one before.
-/

set_option linter.unusedSectionVars false

namespace TQ
open Con VT VTSpec

/-! ### C182 -/

/-- **C182.** A log statement of an enabled level writes colour, header, the messages and one line break after them, one of a disabled level nothing;
errors are enabled on every level. -/
theorem C182_statement {P : LogProps} {v : Level} (hc : P.colored v = true) (hn : P.useNewline = true) (col : Option Nat) (ms : List Txt) :
    (v.num ≤ P.level.num → logStmt P v col ms =
      colorTxt (col.getD (P.color v)) ++ (if P.showHeader then P.header v else []) ++ ms.flatten ++ [esc, '[', '0', 'm', '\n']) ∧
    (¬ v.num ≤ P.level.num → logStmt P v col ms = []) ∧ (v = .ERROR → logStmt P v col ms ≠ []) := by
  have on : v.num ≤ P.level.num → logStmt P v col ms =
      colorTxt (col.getD (P.color v)) ++ (if P.showHeader then P.header v else []) ++ ms.flatten ++ [esc, '[', '0', 'm', '\n'] := by
    intro h; rw [logStmt_on h hc hn]; simp
  refine ⟨on, fun h => logStmt_off h col ms, ?_⟩
  rintro rfl
  rw [on (by simp [Level.num])]
  simp

example : logStmt mainProps .ERROR none ["Failed".toList, " badly.".toList] = esc :: "[31m  [ERROR] Failed badly.".toList ++ esc :: "[0m\n".toList ∧
    logStmt mainProps .DEBUG none ["Failed".toList] = [] ∧ mainProps.colored .ERROR = true := by decide +kernel

/-- **C182.** Dropping the marked lines of the output leaves exactly the meshes written, in their order: for any log lines in between and any progress bars,
if colours and line breaks are on and a log line follows the bars before a mesh. -/
theorem C182_recover {P : LogProps} (hc : P.useColor = true) (hn : P.useNewline = true) (hh : ∀ v, '\n' ∉ P.header v)
    (b : Bar) {es : List Ev} (ho : Ordered P false es) : unlog (stdout P b es) = meshes es := by
  obtain ⟨part, h⟩ := stdout_inv hc hn hh es b false [] [] [] ⟨[], by simp, rfl, by simp, rfl, Or.inl rfl⟩ (fun _ => rfl) ho
  simpa using unlog_inv h

/-- What is logged before a mesh: any messages and bars, but no mesh. -/
def Logged (es : List Ev) : Prop := ∀ e ∈ es, (∀ t, e ≠ .mesh t) ∧ ∀ v col ms, e = .log v col ms → Message ms

theorem ordered_logged {P : LogProps} {a : List Ev} (ha : Logged a) {r : List Ev} (hr : Ordered P true r) (o : Bool) : Ordered P o (a ++ r) := by
  induction a generalizing o with
  | nil => cases o
           · exact Ordered.mono hr
           · exact hr
  | cons e a ih =>
    have ih := ih fun x hx => ha x (by simp [hx])
    obtain ⟨h1, h2⟩ := ha e (by simp)
    cases e with
    | log v col ms => exact ⟨h2 v col ms rfl, ih _⟩
    | newBar => exact ih _
    | bar p => exact ih _
    | mesh t => exact absurd rfl (h1 t)

theorem ordered_program {major minor : Txt} (h1 : '\n' ∉ major) (h2 : '\n' ∉ minor) {steps : List (List Ev × Txt)} (hs : ∀ st ∈ steps, Logged st.1 ∧ Plain st.2)
    {post : List Ev} (hp : Logged post) : Ordered mainProps false (program major minor steps post) := by
  unfold program
  rw [List.append_assoc]
  refine ordered_logged ?_ ?_ _
  · intro e he
    refine ⟨fun t ht => ?_, fun v col ms hms => ?_⟩
    · obtain ⟨x, -, rfl⟩ := List.mem_map.1 he; cases ht
    · obtain ⟨x, hx, rfl⟩ := List.mem_map.1 he
      cases hms
      left
      simp only [List.mem_cons, List.not_mem_nil, or_false] at hx
      rcases hx with rfl | rfl | rfl | rfl | rfl | rfl | rfl | rfl | rfl
      case inr.inr.inr.inr.inr.inr.inr.inl => simp [h1, h2]
      all_goals decide
  · induction steps with
    | nil => rw [List.map_nil, List.flatten_nil, List.nil_append, ← List.append_nil post]; exact ordered_logged hp (r := []) (by simp [Ordered]) _
    | cons st steps ih =>
      obtain ⟨a, p⟩ := hs st (by simp)
      simp only [List.map_cons, List.flatten_cons, List.append_assoc]
      refine ordered_logged a ?_ _
      refine ⟨Or.inr rfl, ?_⟩
      show Ordered mainProps false _
      exact ⟨rfl, p, Ordered.mono (ih fun x hx => hs x (by simp [hx]))⟩

theorem meshes_append (a b : List Ev) : meshes (a ++ b) = meshes a ++ meshes b := by
  induction a with
  | nil => rfl
  | cons e a ih => cases e <;> simp [meshes, ih]

theorem meshes_logged {a : List Ev} (ha : Logged a) : meshes a = [] := by
  induction a with
  | nil => rfl
  | cons e a ih =>
    have ih := ih fun x hx => ha x (by simp [hx])
    cases e with
    | mesh t => exact absurd rfl ((ha _ (by simp)).1 t)
    | _ => exact ih

theorem meshes_banner (major minor : Txt) : meshes (banner major minor) = [] := rfl

/-- **C182.** Dropping the marked lines of the output of a run leaves exactly the texts of its meshes. -/
theorem C182_program {major minor : Txt} (h1 : '\n' ∉ major) (h2 : '\n' ∉ minor) {steps : List (List Ev × Txt)} (hs : ∀ st ∈ steps, Logged st.1 ∧ Plain st.2)
    {post : List Ev} (hp : Logged post) (b : Bar) :
    unlog (stdout mainProps b (program major minor steps post)) = (steps.map (·.2)).flatten := by
  rw [C182_recover rfl rfl (by intro v; cases v <;> decide) b (ordered_program h1 h2 hs hp)]
  unfold program
  rw [meshes_append, meshes_append, meshes_banner, meshes_logged hp, List.nil_append, List.append_nil]
  induction steps with
  | nil => rfl
  | cons st steps ih =>
    simp only [List.map_cons, List.flatten_cons, meshes_append, meshes_logged (hs st (by simp)).1]
    rw [ih fun x hx => hs x (by simp [hx])]
    simp [meshes]

/-- **C182, part that holds.** What a run with one mesh leaves after dropping the marked lines is the file that the text export would write; reading it gives back
the mesh (C125 tells what the sections are). Missing: the redirected output itself is no mesh (`C182_violated`). -/
theorem C182_read_back_partial {major minor : Txt} (h1 : '\n' ∉ major) (h2 : '\n' ∉ minor) {pre post : List Ev} (hl : Logged pre) (hp : Logged post) (b : Bar)
    (W : WEnv) (eps : ℚ) (id : Int) (twin : Nat × Nat → Int × Int) (s : MS.St ℚ) :
    unlog (stdout mainProps b (program major minor [(pre, writeTxt W eps id twin s)] post)) = writeTxt W eps id twin s ∧
    ∃ ss, readTxt (unlog (stdout mainProps b (program major minor [(pre, writeTxt W eps id twin s)] post))) = some (id, ss) := by
  have e := C182_program h1 h2 (steps := [(pre, writeTxt W eps id twin s)]) (fun st hst => by
    rw [List.mem_singleton.1 hst]; exact ⟨hl, plain_mesh _ _ _ _ _ _⟩) hp b
  simp only [List.map_cons, List.map_nil, List.flatten_cons, List.flatten_nil, List.append_nil] at e
  rw [e]
  exact ⟨rfl, _, readTxt_mesh _ _ _ _ _ _⟩

/-- **C182, violated.** The redirected output of a run is never readable as a mesh, whatever the run does. -/
theorem C182_violated (major minor : Txt) (steps : List (List Ev × Txt)) (post : List Ev) (b : Bar) :
    readTxt (stdout mainProps b (program major minor steps post)) = none := by
  obtain ⟨r, hr⟩ : ∃ r, stdout mainProps b (program major minor steps post) = esc :: "[39m  ".toList ++ esc :: "[0m".toList ++ '\n' :: r := by
    refine ⟨stdout mainProps b ((banner major minor).tail ++ (steps.map fun st => st.1 ++ [.log .INFO none [['\n']], .mesh st.2]).flatten ++ post), ?_⟩
    rfl
  rw [hr]
  unfold readTxt
  rw [lines_nl (by decide)]
  have : words (esc :: "[39m  ".toList ++ esc :: "[0m".toList) = [esc :: "[39m".toList, esc :: "[0m".toList] := by decide +kernel
  simp only [this]
  rfl

/-! ### C183 -/

theorem set_cases (b : Bar) (p : Int) (h0 : 0 ≤ b.progress) :
    ((b.set p).show = [] ∧ (b.set p).progress = b.progress ∧ (b.set p).width = b.width ∧ min 100 (max 0 p) ≤ b.progress) ∨
    ∃ q : Nat, b.progress < q ∧ q ≤ 100 ∧ (q : Int) = min 100 (max 0 p) ∧ (b.set p).progress = q ∧ (b.set p).width = b.width ∧ (b.set p).show = barLine b.width q := by
  unfold Bar.set
  simp only
  split
  · rename_i h; left; exact ⟨rfl, rfl, rfl, h⟩
  · rename_i h
    right
    obtain ⟨q, hq⟩ : ∃ q : Nat, (q : Int) = min 100 (max 0 p) := ⟨(min 100 (max 0 p)).toNat, by omega⟩
    refine ⟨q, by omega, by omega, hq, hq.symm, rfl, ?_⟩
    exact show_eq (b := { b with progress := min 100 (max 0 p), update := true }) rfl hq.symm (by omega)

/-- **C183.** Whatever numbers a progress bar is updated with, the bars written are those of strictly increasing percentages between 1 and 100, hence at most 100;
the last one is the greatest of the numbers, brought into this range. -/
theorem C183_bars (w : Nat) (ps : List Int) :
    ∃ qs : List Nat, (shows (Bar.new w) ps).filter (fun t => !t.isEmpty) = qs.map (barLine w) ∧ qs.Pairwise (· < ·) ∧ (∀ q ∈ qs, 1 ≤ q ∧ q ≤ 100) ∧
      qs.length ≤ 100 ∧ ∀ p ∈ ps, 1 ≤ p → ∃ q ∈ qs.getLast?, min 100 p ≤ (q : Int) := by
  have main : ∀ (ps : List Int) (b : Bar), 0 ≤ b.progress → ∃ qs : List Nat, (shows b ps).filter (fun t => !t.isEmpty) = qs.map (barLine b.width) ∧
      qs.Pairwise (· < ·) ∧ (∀ q ∈ qs, b.progress < q ∧ q ≤ 100) ∧
      ∀ p ∈ ps, b.progress < min 100 (max 0 p) → ∃ q ∈ qs.getLast?, min 100 (max 0 p) ≤ (q : Int) := by
    intro ps
    induction ps with
    | nil => intro b _; exact ⟨[], rfl, List.Pairwise.nil, by simp, by simp⟩
    | cons p ps ih =>
      intro b h0
      rcases set_cases b p h0 with ⟨a1, a2, a3, a4⟩ | ⟨q, a1, a2, a3, a4, a5, a6⟩
      · obtain ⟨qs, i1, i2, i3, i4⟩ := ih (b.set p) (by rw [a2]; exact h0)
        rw [a3] at i1; rw [a2] at i3 i4
        refine ⟨qs, ?_, i2, i3, ?_⟩
        · rw [shows, a1]; simpa using i1
        · intro p' hp' hlt
          rcases List.mem_cons.1 hp' with rfl | hp'
          · omega
          · exact i4 p' hp' hlt
      · obtain ⟨qs, i1, i2, i3, i4⟩ := ih (b.set p) (by rw [a4]; omega)
        rw [a5] at i1; rw [a4] at i3 i4
        have lastge : ∃ r ∈ (q :: qs).getLast?, (q : Int) ≤ r ∧ ∀ r' ∈ qs.getLast?, r' = r := by
          cases hqs : qs.getLast? with
          | none => rw [List.getLast?_eq_none_iff] at hqs; subst hqs; exact ⟨q, by simp, le_refl _, by simp⟩
          | some r =>
            refine ⟨r, by simp [List.getLast?_cons, hqs], ?_, by simp⟩
            exact (i3 r (List.mem_of_getLast? hqs)).1.le
        obtain ⟨r, hr, hqr, huni⟩ := lastge
        refine ⟨q :: qs, ?_, ?_, ?_, ?_⟩
        · rw [shows, a6, List.filter_cons_of_pos (by simp [barLine]), i1]; rfl
        · exact List.pairwise_cons.2 ⟨fun x hx => by have := (i3 x hx).1; omega, i2⟩
        · intro x hx
          rcases List.mem_cons.1 hx with rfl | hx
          · exact ⟨a1, a2⟩
          · have := i3 x hx; exact ⟨by omega, this.2⟩
        · intro p' hp' hlt
          rcases List.mem_cons.1 hp' with rfl | hp'
          · exact ⟨r, hr, by omega⟩
          · by_cases hq : (q : Int) < min 100 (max 0 p')
            · obtain ⟨r', h1, h2⟩ := i4 p' hp' hq
              rw [huni r' h1] at h2
              exact ⟨r, hr, h2⟩
            · exact ⟨r, hr, by omega⟩
  obtain ⟨qs, i1, i2, i3, i4⟩ := main ps (Bar.new w) (le_refl _)
  have i3' : ∀ q ∈ qs, 1 ≤ q ∧ q ≤ 100 := fun q hq => by
    obtain ⟨a, b⟩ := i3 q hq
    have : (0 : Int) < q := a
    exact ⟨by omega, b⟩
  refine ⟨qs, i1, i2, i3', ?_, ?_⟩
  · have hn : qs.Nodup := i2.imp fun h => Nat.ne_of_lt h
    have hs : qs ⊆ List.range' 1 100 := fun q hq => by rw [List.mem_range'_1]; have := i3' q hq; omega
    simpa using (List.subperm_of_subset hn hs).length_le
  · intro p hp h1
    obtain ⟨q, hq, h⟩ := i4 p hp (by show (0 : Int) < _; omega)
    exact ⟨q, hq, by omega⟩

/-- **C183.** A bar covers the one before, which it replaces on the terminal: it is at least as long, and it shows at least as many signs. -/
theorem C183_covers {w p q : Nat} (h : p ≤ q) (hq : q ≤ 100) :
    (barLine w p).length ≤ (barLine w q).length ∧ (barLine w p).count '=' ≤ (barLine w q).count '=' ∧
    (barLine w p).length = w + 8 + (natTxt p).length := by
  have len : ∀ p ≤ 100, (barLine w p).length = w + 8 + (natTxt p).length := by
    intro p hp
    have hk : w * p / 100 ≤ w := by
      apply Nat.div_le_of_le_mul
      rw [Nat.mul_comm]
      exact Nat.mul_le_mul_right _ hp
    simp only [barLine, List.length_append, List.length_replicate]
    have e : (if w * p / 100 < w then '>' :: List.replicate (w - w * p / 100 - 1) ' ' else []).length = w - w * p / 100 := by
      split
      · simp; omega
      · simp; omega
    rw [e]
    simp
    omega
  have cnt : ∀ p, (barLine w p).count '=' = w * p / 100 := by
    intro p
    have e : (if w * p / 100 < w then '>' :: List.replicate (w - w * p / 100 - 1) ' ' else []).count '=' = 0 := by
      split <;> simp [List.count_cons, List.count_replicate]
    have e2 : (natTxt p).count '=' = 0 := by
      rw [List.count_eq_zero]
      intro h; have := natTxt_digits p _ h; revert this; decide
    simp only [barLine, List.count_append, e, e2]
    simp
  refine ⟨?_, ?_, len p (by omega)⟩
  · rw [len p (by omega), len q hq]
    have := natTxt_len h hq
    omega
  · rw [cnt, cnt]
    exact Nat.div_le_div_right (Nat.mul_le_mul_left _ h)

/-- **C183.** A bar that is updated when more than 99 percent of the area are meshed stands at 100 percent. -/
theorem C183_complete {b b' : Bar} {t : Txt} {meshArea domArea : ℚ} (h0 : 0 < domArea) (h : domArea * 99 < meshArea * 100) (hb : b.progress ≤ 100)
    (hp : progress b meshArea domArea = some (b', t)) : b'.progress = 100 ∧ (b.progress < 100 → 0 ≤ b.progress → t = barLine b.width 100) := by
  unfold progress at hp
  rw [if_neg h0.ne'] at hp
  have hv : 100 ≤ ⌈100 * meshArea / domArea⌉ := by
    have : (99 : Int) < ⌈100 * meshArea / domArea⌉ := by
      rw [Int.lt_ceil, lt_div_iff₀ h0]
      push_cast
      linarith
    omega
  simp only at hp
  split at hp
  · cases hp
    have e : min 100 (max 0 ⌈100 * meshArea / domArea⌉) = 100 := by omega
    constructor
    · unfold Bar.set
      simp only [e]
      split
      · show b.progress = 100; omega
      · rfl
    · intro hlt hnn
      rcases set_cases b ⌈100 * meshArea / domArea⌉ hnn with ⟨-, -, -, a⟩ | ⟨q, -, -, a, -, -, c⟩
      · omega
      · rw [c]; congr 1; omega
  · cases hp

/-! ### Examples -/

namespace ConExample

/-- Log lines and a bar of a run. -/
def pre : List Ev := [.log .INFO none [[]], .log .INFO none ["Create mesh ".toList, "1".toList], .newBar, .bar 3, .bar 1, .bar 50, .bar 100]

/-- A failed mesh. -/
def post : List Ev := [.log .ERROR none ["Failed to generate a valid mesh.".toList]]

theorem logged : Logged pre ∧ Logged post := by
  have key : ∀ es : List Ev, (es.all fun e => match e with
      | .mesh _ => false
      | .log _ _ ms => !(ms.flatten.contains '\n')
      | _ => true) = true → Logged es := by
    intro es h e he
    have := List.all_eq_true.1 h e he
    refine ⟨fun t ht => ?_, fun v col ms hms => Or.inl ?_⟩
    · subst ht; simp at this
    · subst hms; simpa using this
  exact ⟨key _ (by decide +kernel), key _ (by decide +kernel)⟩

/-- The output of a run, the marked lines dropped. -/
example : unlog (stdout mainProps (Bar.new 70) (program "1".toList "4".toList [(pre, "MESH 1\nVERTICES 0\n".toList)] post)) =
    "MESH 1\nVERTICES 0\n".toList := by decide +kernel

/-- Without the line break after the bar the first line of the mesh would be lost. -/
example : unlog (stdout mainProps (Bar.new 70) (banner "1".toList "4".toList ++ pre ++ [.mesh "MESH 1\nVERTICES 0\n".toList])) =
    "VERTICES 0\n".toList := by decide +kernel

/-- The mesh of an export, written to the console. -/
example (W : WEnv) (s : MS.St ℚ) := C182_read_back_partial (major := "1".toList) (minor := "4".toList) (by decide) (by decide) logged.1 logged.2
  (Bar.new 70) W 0 1 (fun _ => (0, 0)) s

/-- Updates of a short bar. -/
example : (shows (Bar.new 4) [-7, 3, 2, 50, 50, 700, 80]).filter (fun t => !t.isEmpty) =
    ["# [>   ] 3 %\r".toList, "# [==> ] 50 %\r".toList, "# [====] 100 %\r".toList] := by decide +kernel

example : progress (Bar.new 4) (3 / 2) (3 / 2) = some (⟨4, 100, true⟩, "# [====] 100 %\r".toList) ∧ progress (Bar.new 4) 1 0 = none := by
  constructor
  · decide +kernel
  · rfl

end ConExample

end TQ

#print axioms TQ.C182_statement
#print axioms TQ.C182_recover
#print axioms TQ.C182_program
#print axioms TQ.C182_read_back_partial
#print axioms TQ.C182_violated
#print axioms TQ.C183_bars
#print axioms TQ.C183_covers
#print axioms TQ.C183_complete
