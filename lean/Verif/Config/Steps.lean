import Verif.Config.Read

/-!
# Reading all entries of a name
-/

set_option linter.unusedSectionVars false

namespace TQ
namespace Cf
open PR PRSpec CfSpec

variable {T A : Type}

/-- The next entry is read, and `g` makes `f it` of it. -/
def Reads (conv : Line → Option T) (zero : T) (d : Option T) (c : List Line) (n : Name) (g : Para T → Except Fail A) (f : Item → A) (it : Item) : Prop :=
  ∀ (p : Para T) (its1 its2 : List Item), Shape n p → At c p.cur (its1 ++ it :: its2) → (∀ x ∈ its1 ++ it :: its2, x.OK) →
    (∀ x ∈ its1, x.name ≠ some n) → it.name = some n →
    ∃ p', queryPara conv zero d c p = .ret true p' ∧ Shape n p' ∧ At c p'.cur its2 ∧ g p' = .ok (f it)

theorem next_cases (n : Name) (its : List Item) : entriesOf n its = [] ∨
    ∃ its1 it its2, its = its1 ++ it :: its2 ∧ (∀ x ∈ its1, x.name ≠ some n) ∧ it.name = some n ∧ entriesOf n its = it :: entriesOf n its2 := by
  cases h : entriesOf n its with
  | nil => exact Or.inl rfl
  | cons it as =>
    right
    obtain ⟨l1, l2, h1, h2, h3, h4⟩ := List.filter_eq_cons_iff.1 h
    refine ⟨l1, it, l2, h1, fun x hx hn => ?_, by simpa using h3, by rw [← h4]; rfl⟩
    exact h2 x hx (by simpa using hn)

theorem ask_cases {conv : Line → Option T} {zero : T} {d : Option T} {c : List Line} {n : Name} {g : Para T → Except Fail A} {f : Item → A}
    {p : Para T} {its : List Item} (hs : Shape n p) (h : At c p.cur its) (hok : ∀ x ∈ its, x.OK)
    (hR : ∀ it ∈ entriesOf n its, Reads conv zero d c n g f it) :
    (entriesOf n its = [] ∧ queryPara conv zero d c p = .ret false p) ∨
    ∃ it its2 p', entriesOf n its = it :: entriesOf n its2 ∧ (∀ x ∈ its2, x ∈ its) ∧ queryPara conv zero d c p = .ret true p' ∧ Shape n p' ∧ At c p'.cur its2 ∧ g p' = .ok (f it) := by
  rcases next_cases n its with h1 | ⟨its1, it, its2, rfl, h2, h3, h4⟩
  · exact Or.inl ⟨h1, read_none conv zero d hs h hok h1⟩
  · right
    obtain ⟨p', q1, q2, q3, q4⟩ := hR it (by rw [h4]; exact List.mem_cons_self) p its1 its2 hs h hok h2 h3
    exact ⟨it, its2, p', h4, fun x hx => by simp [hx], q1, q2, q3, q4⟩

theorem lines_pos (it : Item) : 0 < it.lines.length := by cases it <;> simp [Item.lines]

theorem entries_bound {c : List Line} {cur : Cur} {its : List Item} (n : Name) (h : At c cur its) : (entriesOf n its).length < c.length + 1 := by
  have h1 : (entriesOf n its).length ≤ its.length := List.length_filter_le _ _
  have h2 : its.length ≤ (its.flatMap Item.lines).length := by
    clear h h1
    induction its with
    | nil => simp
    | cons it its ih =>
      have := lines_pos it
      simp only [List.flatMap_cons, List.length_append, List.length_cons]
      omega
  obtain ⟨a, z, rfl, -, -⟩ := h
  simp only [List.length_append]
  omega

theorem put_self (f : Name → Para T) (n : Name) : put f n (f n) = f := by
  funext m
  unfold put
  split
  · next h => rw [h]
  · rfl

theorem put_same (f : Name → Para T) (n : Name) (p : Para T) : put f n p n = p := by simp [put]

theorem put_other (f : Name → Para T) {n m : Name} (p : Para T) (h : m ≠ n) : put f n p m = f m := by simp [put, h]

theorem put_put (f : Name → Para T) (n : Name) (p q : Para T) : put (put f n p) n q = put f n q := by
  funext m
  unfold put
  split <;> rfl

theorem shape_put {f : Name → Para T} (h : ∀ n, Shape n (f n)) {n : Name} {p : Para T} (hp : Shape n p) (m : Name) : Shape m (put f n p m) := by
  unfold put
  split
  · next hm => rw [hm]; exact hp
  · exact h m

variable {K : Type} [Field K] [LinearOrder K]

/-- All parameters are set up for their names. -/
structure Shaped (r : Reader K) : Prop where
  D : ∀ n, Shape n (r.D n)
  I : ∀ n, Shape n (r.I n)
  S : ∀ n, Shape n (r.S n)
  N : ∀ n, Shape n (r.N n)
  B : ∀ n, Shape n (r.B n)

/-- Nothing was read yet for a name. -/
def Fresh (c : List Line) (its : List Item) (n : Name) (r : Reader K) : Prop :=
  At c (r.D n).cur its ∧ At c (r.I n).cur its ∧ At c (r.S n).cur its ∧ At c (r.N n).cur its ∧ At c (r.B n).cur its

/-- Only the names in `L` were read. -/
def Inv (c : List Line) (its : List Item) (L : List Name) (r : Reader K) : Prop := Shaped r ∧ ∀ n, n ∉ L → Fresh c its n r

theorem Inv.mono {c : List Line} {its : List Item} {L L' : List Name} {r : Reader K} (h : Inv c its L r) (hL : L ⊆ L') : Inv c its L' r :=
  ⟨h.1, fun n hn => h.2 n fun hm => hn (hL hm)⟩

theorem askD_eq (E : Env K) (c : List Line) (n : Name) (d : Option K) (r : Reader K) {b : Bool} {p : Para K} (h : queryPara E.convD 0 d c (r.D n) = .ret b p) :
    askD E c n d r = .ok (b, { r with D := put r.D n p }) := by
  unfold askD
  rw [h]
  rfl

theorem inv_D {c : List Line} {its : List Item} {L : List Name} {r : Reader K} (h : Inv c its L r) {n : Name} {p : Para K} (hp : Shape n p) :
    Inv c its (n :: L) { r with D := put r.D n p } := by
  refine ⟨⟨shape_put h.1.D hp, h.1.I, h.1.S, h.1.N, h.1.B⟩, fun m hm => ?_⟩
  have h1 : m ≠ n := fun e => hm (by rw [e]; exact List.mem_cons_self)
  have h2 := h.2 m fun hx => hm (List.mem_cons_of_mem _ hx)
  unfold Fresh at h2 ⊢
  dsimp only
  rw [put_other _ _ h1]
  exact h2

theorem askD_inv {E : Env K} {c : List Line} {its : List Item} {L : List Name} {r : Reader K} {n : Name} {d : Option K} {g : Para K → Except Fail A}
    {f : Item → A} (hd : True) (h : Inv c its L r) (hn : n ∉ L) (hok : ∀ x ∈ its, x.OK) (hR : ∀ it ∈ entriesOf n its, Reads E.convD 0 d c n g f it) :
    (entriesOf n its = [] ∧ ∃ r', askD E c n d r = .ok (false, r') ∧ Inv c its (n :: L) r' ∧ r'.S = r.S) ∨
    ∃ it as r', entriesOf n its = it :: as ∧ askD E c n d r = .ok (true, r') ∧ Inv c its (n :: L) r' ∧ g (r'.D n) = .ok (f it) ∧ r'.S = r.S := by
  clear hd
  rcases ask_cases (h.1.D n) (h.2 n hn).1 hok hR with ⟨h1, h2⟩ | ⟨it, its2, p', h1, -, h2, h3, h4, h5⟩
  · exact Or.inl ⟨h1, _, askD_eq E c n d r h2,  inv_D h (h.1.D n) , rfl⟩
  · refine Or.inr ⟨it, _, _, h1, askD_eq E c n d r h2, inv_D h h3, ?_ , rfl⟩
    dsimp only
    rw [put_same]
    exact h5

theorem askI_eq (E : Env K) (c : List Line) (n : Name) (r : Reader K) {b : Bool} {p : Para Int} (h : queryPara E.convI 0 none c (r.I n) = .ret b p) :
    askI E c n  r = .ok (b, { r with I := put r.I n p }) := by
  unfold askI
  rw [h]
  rfl

theorem inv_I {c : List Line} {its : List Item} {L : List Name} {r : Reader K} (h : Inv c its L r) {n : Name} {p : Para Int} (hp : Shape n p) :
    Inv c its (n :: L) { r with I := put r.I n p } := by
  refine ⟨⟨h.1.D, shape_put h.1.I hp, h.1.S, h.1.N, h.1.B⟩, fun m hm => ?_⟩
  have h1 : m ≠ n := fun e => hm (by rw [e]; exact List.mem_cons_self)
  have h2 := h.2 m fun hx => hm (List.mem_cons_of_mem _ hx)
  unfold Fresh at h2 ⊢
  dsimp only
  rw [put_other _ _ h1]
  exact h2

theorem askI_inv {E : Env K} {c : List Line} {its : List Item} {L : List Name} {r : Reader K} {n : Name} {d : Option Int} {g : Para Int → Except Fail A}
    {f : Item → A} (hd : d = none) (h : Inv c its L r) (hn : n ∉ L) (hok : ∀ x ∈ its, x.OK) (hR : ∀ it ∈ entriesOf n its, Reads E.convI 0 d c n g f it) :
    (entriesOf n its = [] ∧ ∃ r', askI E c n  r = .ok (false, r') ∧ Inv c its (n :: L) r' ∧ r'.S = r.S) ∨
    ∃ it as r', entriesOf n its = it :: as ∧ askI E c n  r = .ok (true, r') ∧ Inv c its (n :: L) r' ∧ g (r'.I n) = .ok (f it) ∧ r'.S = r.S := by
  subst hd
  rcases ask_cases (h.1.I n) (h.2 n hn).2.1 hok hR with ⟨h1, h2⟩ | ⟨it, its2, p', h1, -, h2, h3, h4, h5⟩
  · exact Or.inl ⟨h1, _, askI_eq E c n  r h2,  inv_I h (h.1.I n) , rfl⟩
  · refine Or.inr ⟨it, _, _, h1, askI_eq E c n  r h2, inv_I h h3, ?_ , rfl⟩
    dsimp only
    rw [put_same]
    exact h5

theorem askS_eq (c : List Line) (n : Name) (r : Reader K) {b : Bool} {p : Para Line} (h : queryPara convS [] none c (r.S n) = .ret b p) :
    askS  c n  r = .ok (b, { r with S := put r.S n p }) := by
  unfold askS
  rw [h]
  rfl

theorem inv_S {c : List Line} {its : List Item} {L : List Name} {r : Reader K} (h : Inv c its L r) {n : Name} {p : Para Line} (hp : Shape n p) :
    Inv c its (n :: L) { r with S := put r.S n p } := by
  refine ⟨⟨h.1.D, h.1.I, shape_put h.1.S hp, h.1.N, h.1.B⟩, fun m hm => ?_⟩
  have h1 : m ≠ n := fun e => hm (by rw [e]; exact List.mem_cons_self)
  have h2 := h.2 m fun hx => hm (List.mem_cons_of_mem _ hx)
  unfold Fresh at h2 ⊢
  dsimp only
  rw [put_other _ _ h1]
  exact h2

theorem askS_inv {c : List Line} {its : List Item} {L : List Name} {r : Reader K} {n : Name} {d : Option Line} {g : Para Line → Except Fail A}
    {f : Item → A} (hd : d = none) (h : Inv c its L r) (hn : n ∉ L) (hok : ∀ x ∈ its, x.OK) (hR : ∀ it ∈ entriesOf n its, Reads convS [] d c n g f it) :
    (entriesOf n its = [] ∧ ∃ r', askS  c n  r = .ok (false, r') ∧ Inv c its (n :: L) r' ∧ ∀ m, m ≠ n → r'.S m = r.S m) ∨
    ∃ it as r', entriesOf n its = it :: as ∧ askS  c n  r = .ok (true, r') ∧ Inv c its (n :: L) r' ∧ g (r'.S n) = .ok (f it) ∧ ∀ m, m ≠ n → r'.S m = r.S m := by
  subst hd
  rcases ask_cases (h.1.S n) (h.2 n hn).2.2.1 hok hR with ⟨h1, h2⟩ | ⟨it, its2, p', h1, -, h2, h3, h4, h5⟩
  · exact Or.inl ⟨h1, _, askS_eq  c n  r h2,  inv_S h (h.1.S n) , fun m hm => put_other _ _ hm⟩
  · refine Or.inr ⟨it, _, _, h1, askS_eq  c n  r h2, inv_S h h3, ?_ , fun m hm => put_other _ _ hm⟩
    dsimp only
    rw [put_same]
    exact h5

theorem askN_eq (E : Env K) (c : List Line) (n : Name) (r : Reader K) {b : Bool} {p : Para Nat} (h : queryPara E.convN 0 none c (r.N n) = .ret b p) :
    askN E c n  r = .ok (b, { r with N := put r.N n p }) := by
  unfold askN
  rw [h]
  rfl

theorem inv_N {c : List Line} {its : List Item} {L : List Name} {r : Reader K} (h : Inv c its L r) {n : Name} {p : Para Nat} (hp : Shape n p) :
    Inv c its (n :: L) { r with N := put r.N n p } := by
  refine ⟨⟨h.1.D, h.1.I, h.1.S, shape_put h.1.N hp, h.1.B⟩, fun m hm => ?_⟩
  have h1 : m ≠ n := fun e => hm (by rw [e]; exact List.mem_cons_self)
  have h2 := h.2 m fun hx => hm (List.mem_cons_of_mem _ hx)
  unfold Fresh at h2 ⊢
  dsimp only
  rw [put_other _ _ h1]
  exact h2

theorem askN_inv {E : Env K} {c : List Line} {its : List Item} {L : List Name} {r : Reader K} {n : Name} {d : Option Nat} {g : Para Nat → Except Fail A}
    {f : Item → A} (hd : d = none) (h : Inv c its L r) (hn : n ∉ L) (hok : ∀ x ∈ its, x.OK) (hR : ∀ it ∈ entriesOf n its, Reads E.convN 0 d c n g f it) :
    (entriesOf n its = [] ∧ ∃ r', askN E c n  r = .ok (false, r') ∧ Inv c its (n :: L) r' ∧ r'.S = r.S) ∨
    ∃ it as r', entriesOf n its = it :: as ∧ askN E c n  r = .ok (true, r') ∧ Inv c its (n :: L) r' ∧ g (r'.N n) = .ok (f it) ∧ r'.S = r.S := by
  subst hd
  rcases ask_cases (h.1.N n) (h.2 n hn).2.2.2.1 hok hR with ⟨h1, h2⟩ | ⟨it, its2, p', h1, -, h2, h3, h4, h5⟩
  · exact Or.inl ⟨h1, _, askN_eq E c n  r h2,  inv_N h (h.1.N n) , rfl⟩
  · refine Or.inr ⟨it, _, _, h1, askN_eq E c n  r h2, inv_N h h3, ?_ , rfl⟩
    dsimp only
    rw [put_same]
    exact h5

theorem askB_eq (E : Env K) (c : List Line) (n : Name) (r : Reader K) {b : Bool} {p : Para Bool} (h : queryPara E.convB false none c (r.B n) = .ret b p) :
    askB E c n  r = .ok (b, { r with B := put r.B n p }) := by
  unfold askB
  rw [h]
  rfl

theorem inv_B {c : List Line} {its : List Item} {L : List Name} {r : Reader K} (h : Inv c its L r) {n : Name} {p : Para Bool} (hp : Shape n p) :
    Inv c its (n :: L) { r with B := put r.B n p } := by
  refine ⟨⟨h.1.D, h.1.I, h.1.S, h.1.N, shape_put h.1.B hp⟩, fun m hm => ?_⟩
  have h1 : m ≠ n := fun e => hm (by rw [e]; exact List.mem_cons_self)
  have h2 := h.2 m fun hx => hm (List.mem_cons_of_mem _ hx)
  unfold Fresh at h2 ⊢
  dsimp only
  rw [put_other _ _ h1]
  exact h2

theorem askB_inv {E : Env K} {c : List Line} {its : List Item} {L : List Name} {r : Reader K} {n : Name} {d : Option Bool} {g : Para Bool → Except Fail A}
    {f : Item → A} (hd : d = none) (h : Inv c its L r) (hn : n ∉ L) (hok : ∀ x ∈ its, x.OK) (hR : ∀ it ∈ entriesOf n its, Reads E.convB false d c n g f it) :
    (entriesOf n its = [] ∧ ∃ r', askB E c n  r = .ok (false, r') ∧ Inv c its (n :: L) r' ∧ r'.S = r.S) ∨
    ∃ it as r', entriesOf n its = it :: as ∧ askB E c n  r = .ok (true, r') ∧ Inv c its (n :: L) r' ∧ g (r'.B n) = .ok (f it) ∧ r'.S = r.S := by
  subst hd
  rcases ask_cases (h.1.B n) (h.2 n hn).2.2.2.2 hok hR with ⟨h1, h2⟩ | ⟨it, its2, p', h1, -, h2, h3, h4, h5⟩
  · exact Or.inl ⟨h1, _, askB_eq E c n  r h2,  inv_B h (h.1.B n) , rfl⟩
  · refine Or.inr ⟨it, _, _, h1, askB_eq E c n  r h2, inv_B h h3, ?_ , rfl⟩
    dsimp only
    rw [put_same]
    exact h5

theorem whileD_read {E : Env K} {c : List Line} {n : Name} {d : Option K} {g : Para K → Except Fail A} {f : Item → A} (hd : True) :
    ∀ (k : Nat) (r : Reader K) (its : List Item), Shape n (r.D n) → At c (r.D n).cur its → (∀ x ∈ its, x.OK) →
      (∀ it ∈ entriesOf n its, Reads E.convD 0 d c n g f it) → (entriesOf n its).length < k →
      ∃ p', whileD E c n d g k r = .ok ((entriesOf n its).map f, { r with D := put r.D n p' }) ∧ Shape n p' := by
  clear hd
  intro k
  induction k with
  | zero => intro r its _ _ _ _ hk; omega
  | succ k ih =>
    intro r its hs ha hok hR hk
    rcases ask_cases hs ha hok hR with ⟨h1, h2⟩ | ⟨it, its2, p', h1, hsub, h2, h3, h4, h5⟩
    · refine ⟨r.D n, ?_, hs⟩
      unfold whileD
      rw [askD_eq E c n d r h2, h1]
      rfl
    · have hR2 : ∀ it ∈ entriesOf n its2, Reads E.convD 0 d c n g f it := fun x hx => hR x (by rw [h1]; exact List.mem_cons_of_mem _ hx)
      obtain ⟨q, q1, q2⟩ := ih { r with D := put r.D n p' } its2 (by dsimp only; rw [put_same]; exact h3) (by dsimp only; rw [put_same]; exact h4)
        (fun x hx => hok x (hsub x hx)) hR2 (by rw [h1] at hk; simpa using hk)
      refine ⟨q, ?_, q2⟩
      unfold whileD
      rw [askD_eq E c n d r h2, h1]
      dsimp only [bind, Except.bind]
      simp only [if_true, put_same, h5]
      rw [q1]
      dsimp only
      rw [put_put]
      rfl

theorem whileD_inv {E : Env K} {c : List Line} {its : List Item} {L : List Name} {r : Reader K} {n : Name} {d : Option K} {g : Para K → Except Fail A}
    {f : Item → A} (hd : True) (h : Inv c its L r) (hn : n ∉ L) (hok : ∀ x ∈ its, x.OK) (hR : ∀ it ∈ entriesOf n its, Reads E.convD 0 d c n g f it) :
    ∃ r', whileD E c n d g (c.length + 1) r = .ok ((entriesOf n its).map f, r') ∧ Inv c its (n :: L) r' := by
  obtain ⟨p', h1, h2⟩ := whileD_read hd (c.length + 1) r its (h.1.D n) (h.2 n hn).1 hok hR (entries_bound n (h.2 n hn).1)
  exact ⟨_, h1, inv_D h h2⟩

theorem whileI_read {E : Env K} {c : List Line} {n : Name} {d : Option Int} {g : Para Int → Except Fail A} {f : Item → A} (hd : d = none) :
    ∀ (k : Nat) (r : Reader K) (its : List Item), Shape n (r.I n) → At c (r.I n).cur its → (∀ x ∈ its, x.OK) →
      (∀ it ∈ entriesOf n its, Reads E.convI 0 d c n g f it) → (entriesOf n its).length < k →
      ∃ p', whileI E c n  g k r = .ok ((entriesOf n its).map f, { r with I := put r.I n p' }) ∧ Shape n p' := by
  subst hd
  intro k
  induction k with
  | zero => intro r its _ _ _ _ hk; omega
  | succ k ih =>
    intro r its hs ha hok hR hk
    rcases ask_cases hs ha hok hR with ⟨h1, h2⟩ | ⟨it, its2, p', h1, hsub, h2, h3, h4, h5⟩
    · refine ⟨r.I n, ?_, hs⟩
      unfold whileI
      rw [askI_eq E c n  r h2, h1]
      rfl
    · have hR2 : ∀ it ∈ entriesOf n its2, Reads E.convI 0 none c n g f it := fun x hx => hR x (by rw [h1]; exact List.mem_cons_of_mem _ hx)
      obtain ⟨q, q1, q2⟩ := ih { r with I := put r.I n p' } its2 (by dsimp only; rw [put_same]; exact h3) (by dsimp only; rw [put_same]; exact h4)
        (fun x hx => hok x (hsub x hx)) hR2 (by rw [h1] at hk; simpa using hk)
      refine ⟨q, ?_, q2⟩
      unfold whileI
      rw [askI_eq E c n  r h2, h1]
      dsimp only [bind, Except.bind]
      simp only [if_true, put_same, h5]
      rw [q1]
      dsimp only
      rw [put_put]
      rfl

theorem whileI_inv {E : Env K} {c : List Line} {its : List Item} {L : List Name} {r : Reader K} {n : Name} {d : Option Int} {g : Para Int → Except Fail A}
    {f : Item → A} (hd : d = none) (h : Inv c its L r) (hn : n ∉ L) (hok : ∀ x ∈ its, x.OK) (hR : ∀ it ∈ entriesOf n its, Reads E.convI 0 d c n g f it) :
    ∃ r', whileI E c n  g (c.length + 1) r = .ok ((entriesOf n its).map f, r') ∧ Inv c its (n :: L) r' := by
  obtain ⟨p', h1, h2⟩ := whileI_read hd (c.length + 1) r its (h.1.I n) (h.2 n hn).2.1 hok hR (entries_bound n (h.2 n hn).2.1)
  exact ⟨_, h1, inv_I h h2⟩

theorem whileS_read {c : List Line} {n : Name} {d : Option Line} {g : Para Line → Except Fail A} {f : Item → A} (hd : d = none) :
    ∀ (k : Nat) (r : Reader K) (its : List Item), Shape n (r.S n) → At c (r.S n).cur its → (∀ x ∈ its, x.OK) →
      (∀ it ∈ entriesOf n its, Reads convS [] d c n g f it) → (entriesOf n its).length < k →
      ∃ p', whileS  c n  g k r = .ok ((entriesOf n its).map f, { r with S := put r.S n p' }) ∧ Shape n p' := by
  subst hd
  intro k
  induction k with
  | zero => intro r its _ _ _ _ hk; omega
  | succ k ih =>
    intro r its hs ha hok hR hk
    rcases ask_cases hs ha hok hR with ⟨h1, h2⟩ | ⟨it, its2, p', h1, hsub, h2, h3, h4, h5⟩
    · refine ⟨r.S n, ?_, hs⟩
      unfold whileS
      rw [askS_eq  c n  r h2, h1]
      rfl
    · have hR2 : ∀ it ∈ entriesOf n its2, Reads convS [] none c n g f it := fun x hx => hR x (by rw [h1]; exact List.mem_cons_of_mem _ hx)
      obtain ⟨q, q1, q2⟩ := ih { r with S := put r.S n p' } its2 (by dsimp only; rw [put_same]; exact h3) (by dsimp only; rw [put_same]; exact h4)
        (fun x hx => hok x (hsub x hx)) hR2 (by rw [h1] at hk; simpa using hk)
      refine ⟨q, ?_, q2⟩
      unfold whileS
      rw [askS_eq  c n  r h2, h1]
      dsimp only [bind, Except.bind]
      simp only [if_true, put_same, h5]
      rw [q1]
      dsimp only
      rw [put_put]
      rfl

theorem whileS_inv {c : List Line} {its : List Item} {L : List Name} {r : Reader K} {n : Name} {d : Option Line} {g : Para Line → Except Fail A}
    {f : Item → A} (hd : d = none) (h : Inv c its L r) (hn : n ∉ L) (hok : ∀ x ∈ its, x.OK) (hR : ∀ it ∈ entriesOf n its, Reads convS [] d c n g f it) :
    ∃ r', whileS  c n  g (c.length + 1) r = .ok ((entriesOf n its).map f, r') ∧ Inv c its (n :: L) r' := by
  obtain ⟨p', h1, h2⟩ := whileS_read hd (c.length + 1) r its (h.1.S n) (h.2 n hn).2.2.1 hok hR (entries_bound n (h.2 n hn).2.2.1)
  exact ⟨_, h1, inv_S h h2⟩

end Cf
end TQ
