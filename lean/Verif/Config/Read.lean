import Verif.Config.Keys

/-!
# Reading the next entry
-/

set_option linter.unusedSectionVars false

namespace TQ
namespace Cf
open PR PRSpec CfSpec

variable {T : Type}

/-- A parameter is set up for a name. -/
structure Shape (n : Name) (p : Para T) : Prop where
  kind : p.kind = n.kind
  sk : p.startKey = keyword n
  ek : p.endKey = (closing n).getD []
  ncol : p.ncol = n.cols
  row : n.kind ≠ .matrix → p.nrow = 1 ∧ p.vals.length = n.cols

theorem queryPara_scalar (conv : Line → Option T) (zero : T) (d : Option T) (c : List Line) {p : Para T} (h : p.kind = .scalar) :
    queryPara conv zero d c p = queryScalar conv c p := by
  unfold queryPara; rw [h]

theorem queryPara_vector (conv : Line → Option T) (zero : T) (d : Option T) (c : List Line) {p : Para T} (h : p.kind = .vector) :
    queryPara conv zero d c p = queryVector conv d c p := by
  unfold queryPara; rw [h]

theorem queryPara_matrix (conv : Line → Option T) (zero : T) (d : Option T) (c : List Line) {p : Para T} (h : p.kind = .matrix) :
    queryPara conv zero d c p = queryMatrix conv zero d c p := by
  unfold queryPara; rw [h]

theorem shape_new (n : Name) (zero : T) : Shape n (n.para zero) := by
  refine ⟨rfl, startKey_eq n, endKey_eq n, rfl, fun _ => ⟨rfl, ?_⟩⟩
  simp [Name.para, Para.new]

theorem shape_enter {n : Name} {p : Para T} (h : Shape n p) (s e : Nat) : Shape n (enterPara s e p) := ⟨h.kind, h.sk, h.ek, h.ncol, h.row⟩

theorem cols_scalar {n : Name} (h : n.kind = .scalar) : n.cols = 1 := by
  have : ∀ n ∈ names, n.kind = .scalar → n.cols = 1 := by decide +kernel
  exact this n (mem_names n) h

theorem cols_pos (n : Name) : 0 < n.cols := by
  have : ∀ n ∈ names, 0 < n.cols := by decide +kernel
  exact this n (mem_names n)

/-- No entry with the name. -/
theorem read_none (conv : Line → Option T) (zero : T) (d : Option T) {c : List Line} {n : Name} {p : Para T} {its : List Item} (hs : Shape n p)
    (h : At c p.cur its) (hok : ∀ it ∈ its, it.OK) (hn : entriesOf n its = []) : queryPara conv zero d c p = .ret false p := by
  refine C133_partial conv zero d c p h.bound ?_
  rw [hs.sk]
  refine at_none h hok fun it hit hne => ?_
  have : it ∈ entriesOf n its := List.mem_filter.2 ⟨hit, by simpa using hne⟩
  rw [hn] at this
  cases this

theorem single_of {n : Name} {it : Item} (hk : n.kind ≠ .matrix) (hok : it.OK) (hit : it.name = some n) :
    ∃ pre body, it = .single n pre body ∧ ':' ∉ pre ∧ ':' ∉ body := by
  cases it with
  | other l => simp [Item.name] at hit
  | single m pre body => simp only [Item.name, Option.some.injEq] at hit; subst hit; exact ⟨pre, body, rfl, hok.2⟩
  | table m pre body rows en =>
    simp only [Item.name, Option.some.injEq] at hit; subst hit
    obtain ⟨q, hq, -⟩ := hok
    exact (hk ((kind_eq m).2 (by simp [hq]))).elim

theorem table_of {n : Name} {it : Item} (hk : n.kind = .matrix) (hok : it.OK) (hit : it.name = some n) :
    ∃ pre body rows en q, it = .table n pre body rows en ∧ closing n = some q ∧ (∀ l ∈ rows, ¬q <:+: l) ∧ q <:+: en := by
  cases it with
  | other l => simp [Item.name] at hit
  | single m pre body =>
    simp only [Item.name, Option.some.injEq] at hit; subst hit
    exact ((kind_eq m).1 hk hok.1).elim
  | table m pre body rows en =>
    simp only [Item.name, Option.some.injEq] at hit; subst hit
    obtain ⟨q, h1, -, -, h2, -, h3⟩ := hok
    exact ⟨pre, body, rows, en, q, rfl, h1, fun l hl => (h2 l hl).2, h3⟩

/-- The next scalar. -/
theorem read_scalar (conv : Line → Option T) (zero : T) (d : Option T) {c : List Line} {n : Name} {p : Para T} {its1 its2 : List Item} {it : Item}
    (hk : n.kind = .scalar) (hs : Shape n p) (h : At c p.cur (its1 ++ it :: its2)) (hok : ∀ x ∈ its1 ++ it :: its2, x.OK)
    (hn : ∀ x ∈ its1, x.name ≠ some n) (hit : it.name = some n) {v : T} (hv : conv it.text = some v) :
    ∃ p', queryPara conv zero d c p = .ret true p' ∧ Shape n p' ∧ At c p'.cur its2 ∧ p'.found = true ∧ p'.value 0 = some v := by
  obtain ⟨pre, body, rfl, h1, h2⟩ := single_of (by simp [hk]) (hok it (by simp)) hit
  obtain ⟨i, f1, f2, f3, f4⟩ := at_first h hok hn hit
  obtain ⟨r1, r2⟩ := hs.row (by simp [hk])
  have hc1 := cols_scalar hk
  simp only [Item.lines, List.length_singleton] at f2 f4
  have hl := f3 0 _ rfl
  rw [Nat.add_zero] at hl
  rw [← hs.sk] at f1
  obtain ⟨pos, l', g1, g2, g3⟩ := query_first h.bound f1 (by omega)
  rw [hl] at g1; cases g1
  have ht : strip ((pre ++ keyword n ++ body).drop (pos + p.startKey.length)) = Item.text (.single n pre body) := by
    rw [hs.sk] at g2 ⊢
    exact valueOf_unique (valueOf_of_last g2) (keyword_value h1 h2)
  have hq : queryPara conv zero d c p = .ret true { ({ p with cur := { p.cur with ix := i + 1 - p.cur.bs } } : Para T).setValue 0 v with found := true } := by
    rw [queryPara_scalar _ _ _ _ (hs.kind.trans hk)]
    unfold queryScalar
    rw [g3]
    simp only [hl]
    rw [ht, hv]
  have hset : ({ p with cur := { p.cur with ix := i + 1 - p.cur.bs } } : Para T).setValue 0 v =
      { p with cur := { p.cur with ix := i + 1 - p.cur.bs }, vals := p.vals.set 0 v } := by
    simp [Para.setValue, hs.ncol, hc1, r1]
  rw [hset] at hq
  refine ⟨_, hq, ⟨hs.kind, hs.sk, hs.ek, hs.ncol, fun _ => ⟨r1, by simpa using r2⟩⟩, f4, rfl, ?_⟩
  simp [Para.value, hs.ncol, hc1, r1, r2]

/-- With all cells there, default values do not matter. -/
theorem filled_process (conv : Line → Option T) (d : T) {w : Nat} {l : Line} (h : Filled conv w l) :
    processVector conv none w l = processVector conv (some d) w l := by
  obtain ⟨h1, h2⟩ := h
  simp only [processVector, fill, entries_default, entries_nodefault]
  have : ∀ cs : List Line, (∀ c ∈ cs, ∃ v, conv (bare c) = some v) → (cs.filterMap fun c => conv (bare c)) = cs.map fun c => (conv (bare c)).getD d := by
    intro cs
    induction cs with
    | nil => intro _; rfl
    | cons c cs ih =>
      intro h
      obtain ⟨v, hv⟩ := h c List.mem_cons_self
      rw [List.filterMap_cons, hv]
      simp [hv, ih fun c hc => h c (List.mem_cons_of_mem _ hc)]
  rw [this _ h2]
  simp [h1]

/-- The next vector. -/
theorem read_vector (conv : Line → Option T) (zero : T) (d : T) {dflt : Option T} {c : List Line} {n : Name} {p : Para T} {its1 its2 : List Item} {it : Item}
    (hk : n.kind = .vector) (hs : Shape n p) (h : At c p.cur (its1 ++ it :: its2)) (hok : ∀ x ∈ its1 ++ it :: its2, x.OK)
    (hn : ∀ x ∈ its1, x.name ≠ some n) (hit : it.name = some n) (hd : dflt = some d ∨ dflt = none ∧ Filled conv n.cols it.text) :
    ∃ p', queryPara conv zero dflt c p = .ret true p' ∧ Shape n p' ∧ At c p'.cur its2 ∧
      ∀ i, i < n.cols → p'.value i = some (cellValue conv d it.text i) := by
  obtain ⟨pre, body, rfl, h1, h2⟩ := single_of (by simp [hk]) (hok it (by simp)) hit
  obtain ⟨i, f1, f2, f3, f4⟩ := at_first h hok hn hit
  obtain ⟨r1, r2⟩ := hs.row (by simp [hk])
  simp only [Item.lines, List.length_singleton] at f2 f4
  have hl := f3 0 _ rfl
  rw [Nat.add_zero] at hl
  rw [← hs.sk] at f1
  have hq : queryPara conv zero dflt c p = queryVector conv (some d) c p := by
    rw [queryPara_vector _ _ _ _ (hs.kind.trans hk)]
    rcases hd with rfl | ⟨rfl, hf⟩
    · rfl
    · obtain ⟨pos, l', g1, g2, g3⟩ := query_first h.bound f1 (by omega)
      rw [hl] at g1; cases g1
      have ht : strip ((pre ++ keyword n ++ body).drop (pos + p.startKey.length)) = Item.text (.single n pre body) := by
        rw [hs.sk] at g2 ⊢
        exact valueOf_unique (valueOf_of_last g2) (keyword_value h1 h2)
      unfold queryVector
      rw [g3]
      simp only [hl]
      rw [ht, hs.ncol, filled_process conv d hf]
  rcases queryVector_default conv d c p h.bound r1 (by rw [r2, hs.ncol]) with ⟨g1, -⟩ | ⟨j, l, t, g1, g2, g3, g4, g5⟩
  · have : i ∈ hits p.startKey c (p.cur.bs + p.cur.ix) p.cur.be := mem_hits.2 ⟨f1.1, by omega, f1.2.1⟩
    rw [g1] at this; cases this
  · obtain rfl := first_unique (first_of_hits g1) f1
    rw [hl] at g3; cases g3
    have ht : t = Item.text (.single n pre body) := by
      rw [hs.sk] at g4
      exact valueOf_unique g4 (keyword_value h1 h2)
    subst ht
    rw [g5] at hq
    refine ⟨_, hq, ⟨hs.kind, hs.sk, hs.ek, hs.ncol, fun _ => ⟨r1, by simp [rowOf, hs.ncol]⟩⟩, f4, fun m hm => ?_⟩
    simp only [Para.value, hs.ncol, r1, Nat.mul_one]
    rw [if_neg (by omega), rowOf, List.getElem?_map, List.getElem?_range hm]
    rfl

/-- The next matrix. -/
theorem read_matrix (conv : Line → Option T) (zero : T) (d : T) {dflt : Option T} {c : List Line} {n : Name} {p : Para T} {its1 its2 : List Item} {it : Item}
    (hk : n.kind = .matrix) (hs : Shape n p) (h : At c p.cur (its1 ++ it :: its2)) (hok : ∀ x ∈ its1 ++ it :: its2, x.OK)
    (hn : ∀ x ∈ its1, x.name ≠ some n) (hit : it.name = some n) (hne : it.rows ≠ [])
    (hd : (dflt = some d ∧ ∀ l ∈ it.rows, (cells l).length ≤ n.cols) ∨ (dflt = none ∧ ∀ l ∈ it.rows, Filled conv n.cols l)) :
    ∃ p', queryPara conv zero dflt c p = .ret true p' ∧ Shape n p' ∧ At c p'.cur its2 ∧ p'.nrow = it.rows.length ∧
      ∀ j l, it.rows[j]? = some l → ∀ i, i < n.cols → p'.value2 i j = some (cellValue conv d l i) := by
  obtain ⟨pre, body, rows, en, q, rfl, hq1, hq2, hq3⟩ := table_of hk (hok it (by simp)) hit
  obtain ⟨s, f1, f2, f3, f4⟩ := at_first h hok hn hit
  simp only [Item.rows] at hne hd ⊢
  simp only [Item.lines, List.length_cons, List.length_append, List.length_singleton, List.length_nil, Nat.zero_add] at f2 f3 f4
  rw [← hs.sk] at f1
  have hek : p.endKey = q := by rw [hs.ek, hq1]; rfl
  have hrow : ∀ j l, rows[j]? = some l → c[s + 1 + j]? = some l := by
    intro j l hj
    have hlt : j < rows.length := (List.getElem?_eq_some_iff.1 hj).1
    have := f3 (j + 1) l (by rw [List.getElem?_cons_succ, List.getElem?_append_left hlt, hj])
    rwa [Nat.add_assoc, Nat.add_comm 1 j]
  have hen : c[s + 1 + rows.length]? = some en := by
    have := f3 (rows.length + 1) en (by rw [List.getElem?_cons_succ, List.getElem?_append_right le_rfl]; simp)
    rwa [Nat.add_assoc, Nat.add_comm 1]
  have f5 : First p.endKey c (s + 1) (s + 1 + rows.length) := by
    rw [hek]
    refine ⟨by omega, ⟨en, hen, hq3⟩, ?_⟩
    rintro j hj hj' ⟨l, hl, hl'⟩
    have hlt : j - (s + 1) < rows.length := by omega
    have := hrow (j - (s + 1)) _ (List.getElem?_eq_getElem hlt)
    rw [show s + 1 + (j - (s + 1)) = j by omega, hl] at this
    cases this
    exact hq2 _ (List.getElem_mem hlt) hl'
  have hbody : (c.take (s + 1 + rows.length)).drop (s + 1) = rows := by
    have hb := h.bound
    apply List.ext_getElem?
    intro j
    by_cases hj : j < rows.length
    · rw [body_get c s _ j (by omega), hrow j _ (List.getElem?_eq_getElem hj), List.getElem?_eq_getElem hj]
    · rw [List.getElem?_eq_none (by rw [body_length c s _ (by omega)]; omega), List.getElem?_eq_none (by omega)]
  have hpos := cols_pos n
  have hr : 0 < rows.length := List.length_pos_of_ne_nil hne
  have hproc : ∀ l ∈ rows, processVector conv dflt n.cols l = (List.range n.cols).map fun i => cellValue conv d l i := by
    intro l hl
    rcases hd with ⟨rfl, hc⟩ | ⟨rfl, hf⟩
    · exact processVector_default conv d n.cols l (hc l hl)
    · rw [filled_process conv d (hf l hl)]
      exact processVector_default conv d n.cols l (hf l hl).1.le
  have hlen : ∀ l ∈ rows, (processVector conv dflt n.cols l).length = n.cols := fun l hl => by rw [hproc l hl]; simp
  have hol : (processMatrix conv dflt n.cols rows).length = n.cols * rows.length := flatMap_length _ _ _ hlen
  have hdiv : (processMatrix conv dflt n.cols rows).length / n.cols = rows.length := by rw [hol, Nat.mul_div_cancel_left _ hpos]
  have hq : queryPara conv zero dflt c p = .ret true { p with cur := ⟨p.cur.bs, p.cur.be, s + 1 + rows.length + 1 - p.cur.bs⟩, found := true, nrow := rows.length, vals := processMatrix conv dflt n.cols rows } := by
    rw [queryPara_matrix _ _ _ _ (hs.kind.trans hk)]
    rw [queryMatrix_at conv zero dflt c p s (s + 1 + rows.length) (by rw [hs.ncol]; exact hpos) h.bound f1 f5 (by omega)]
    dsimp only
    rw [← hs.ncol] at hdiv hol ⊢
    rw [hbody, hdiv, if_neg (by rw [hol]; simp)]
    rw [setRows_resize zero _ rows.length { p with cur := ⟨p.cur.bs, p.cur.be, s + 1 + rows.length + 1 - p.cur.bs⟩ } (by rw [← hk]; exact hs.kind) hr
      hol]
  refine ⟨_, hq, ⟨hs.kind, hs.sk, hs.ek, hs.ncol, fun hx => (hx hk).elim⟩, ?_, rfl, fun j l hj i hi => ?_⟩
  · have e1 : s + 1 + rows.length + 1 = s + (rows.length + 1 + 1) := by omega
    dsimp only
    rw [e1]
    exact f4
  · have hlt : j < rows.length := (List.getElem?_eq_some_iff.1 hj).1
    have hbig : ¬n.cols * rows.length ≤ j * n.cols + i := by
      have : n.cols * (j + 1) ≤ n.cols * rows.length := Nat.mul_le_mul_left _ hlt
      rw [Nat.mul_add, Nat.mul_comm n.cols j] at this
      omega
    simp only [Para.value2, hs.ncol]
    rw [if_neg hbig, processMatrix, flatMap_getElem _ n.cols rows hlen j i hi, hj, Option.bind_some, hproc l (List.mem_of_getElem? hj),
      List.getElem?_map, List.getElem?_range hi]
    rfl

end Cf
end TQ
