import Verif.ViewsSpec

/-!
# Views and copies: lemmas
-/

namespace Conj.Views

open Conj.Spec

/-- more buffers, the old ones unchanged -/
def Grow (m m' : Memory) : Prop := m.next ≤ m'.next ∧ ∀ b < m.next, m'.cells b = m.cells b

theorem Grow.refl (m : Memory) : Grow m m := ⟨le_rfl, fun _ _ => rfl⟩

theorem Grow.trans {a b c : Memory} (h : Grow a b) (h' : Grow b c) : Grow a c :=
  ⟨h.1.trans h'.1, fun x hx => by rw [h'.2 x (lt_of_lt_of_le hx h.1), h.2 x hx]⟩

theorem Grow.read {m m' : Memory} (h : Grow m m') {a : NpArray} (ha : a.base < m.next) : m'.read a = m.read a := by
  simp only [Memory.read, h.2 _ ha]

theorem Grow.contents {m m' : Memory} (h : Grow m m') {v : Item} (hv : ∀ a, v = .arr a → a.base < m.next) :
    itemContents m' v = itemContents m v := by
  cases v with
  | arr a => simp only [itemContents, h.read (hv a rfl)]
  | _ => rfl

theorem over_getitem {β γ : Type} (f : β → γ) (a : NdArr β) (key : Key) :
    (over f a).getitem key = (a.getitem key).map (over f) := by
  unfold NdArr.getitem
  simp only [over]
  cases a.rshape.getLast? with
  | none => rfl
  | some n =>
    cases key with
    | int i => simp only; cases normIndex i n <;> rfl
    | ints l => simp only; cases l.mapM (fun i => normIndex i n) <;> rfl
    | slice s t => rfl

theorem over_colPlaces {β γ : Type} (f : β → γ) (a : NdArr β) (key : Key) :
    colPlaces (over f a) key = (colPlaces a key).map (over f) := by
  unfold colPlaces
  simp only [over]
  split
  · rename_i c r h
    cases key with
    | int i => simp only; cases normIndex i c <;> rfl
    | ints l => simp only; cases l.mapM (fun i => normIndex i c) <;> rfl
    | slice s t => rfl
  · rfl

theorem puts_next (m : Memory) (ws : List Put) : (puts m ws).next = m.next := by
  induction ws generalizing m with
  | nil => rfl
  | cons w ws ih => rw [puts, ih]

theorem puts_cells (m : Memory) (ws : List Put) (b : ℕ) (h : ∀ w ∈ ws, w.base ≠ b) : (puts m ws).cells b = m.cells b := by
  induction ws generalizing m with
  | nil => rfl
  | cons w ws ih =>
    rw [puts, ih _ fun w' hw' => h w' (List.mem_cons_of_mem _ hw')]
    exact Function.update_of_ne (h w List.mem_cons_self).symm _ _

theorem detached_of {m m' : Memory} (hg : Grow m m') {o : Object}
    (hf : ∀ kv ∈ o.fields, ∀ a, kv.2 = .arr a → m.next ≤ a.base) : Detached m o m' := by
  constructor
  · intro ws hws
    simp only [seen, Obj.mk.injEq, true_and, and_true]
    refine List.map_congr_left fun kv hkv => ?_
    cases hi : kv.2 with
    | arr a =>
      have := hf kv hkv a hi
      simp only [itemContents, Memory.read]
      rw [puts_cells m' ws a.base fun w hw => by have := hws w hw; omega]
    | _ => rfl
  · intro ws hws a ha
    have ha : a.base < m.next := ha
    rw [← hg.read ha]
    simp only [Memory.read]
    rw [puts_cells m' ws a.base fun w hw => by
      obtain ⟨kv, hkv, b, hb, e⟩ := hws w hw
      have := hf kv hkv b hb
      omega]

/-- running a step on the values of all fields -/
theorem mapM_fields (f : Item → Prog Item) (Pre : Item → Prop) (Q : Item → Item → Memory → Prop) (m₀ : Memory)
    (step : ∀ m, Grow m₀ m → ∀ v, Pre v → ∃ v' m', f v m = .ok (v', m') ∧ Grow m m' ∧ Q v v' m')
    (stable : ∀ v v' m m', Q v v' m → Grow m m' → Q v v' m') :
    ∀ (l : List (String × Item)), (∀ kv ∈ l, Pre kv.2) → ∀ m, Grow m₀ m →
      ∃ l' m', (l.mapM (m := Prog) fun kv => do return (kv.1, ← f kv.2)) m = .ok (l', m') ∧ Grow m m' ∧
        List.Forall₂ (fun kv kv' => kv.1 = kv'.1 ∧ Q kv.2 kv'.2 m') l l' := by
  intro l
  induction l with
  | nil => exact fun _ m _ => ⟨[], m, by simp [pure, StateT.pure, Except.pure], Grow.refl m, .nil⟩
  | cons kv l ih =>
    intro hl m hm
    obtain ⟨v', m₁, e₁, g₁, q₁⟩ := step m hm kv.2 (hl kv List.mem_cons_self)
    obtain ⟨l', m₂, e₂, g₂, q₂⟩ := ih (fun kv hkv => hl kv (List.mem_cons_of_mem _ hkv)) m₁ (hm.trans g₁)
    refine ⟨(kv.1, v') :: l', m₂, ?_, g₁.trans g₂, .cons ⟨rfl, stable _ _ _ _ q₁ g₂⟩ q₂⟩
    rw [List.mapM_cons]
    simp only [bind, StateT.bind, Except.bind, pure, StateT.pure, Except.pure, e₁] at e₂ ⊢
    rw [e₂]

theorem newArray_run (a : NdArr ℝ) (m : Memory) : ∃ b m', newArray a m = .ok (b, m') ∧ Grow m m' ∧ m'.read b = a ∧
    b.base = m.next ∧ b.base < m'.next :=
  ⟨_, _, rfl, ⟨Nat.le_succ _, fun x hx => Function.update_of_ne (Nat.ne_of_lt hx) _ _⟩, by
    simp only [Memory.read, over, Function.update_self, id], rfl, Nat.lt_succ_self _⟩

theorem deepcopy_run (m₀ m : Memory) (hm : Grow m₀ m) (v : Item) (hv : ∀ a, v = .arr a → a.base < m₀.next) :
    ∃ v' m', deepcopy v m = .ok (v', m') ∧ Grow m m' ∧ (itemContents m' v' = itemContents m₀ v ∧
      ∀ a, v' = .arr a → m₀.next ≤ a.base ∧ a.base < m'.next) := by
  cases v with
  | num x => exact ⟨.num x, m, rfl, Grow.refl m, rfl, fun a h => by cases h⟩
  | flag x => exact ⟨.flag x, m, rfl, Grow.refl m, rfl, fun a h => by cases h⟩
  | arr a =>
    obtain ⟨b, m', e, g, hr, hb, hb'⟩ := newArray_run (m.read a) m
    refine ⟨.arr b, m', ?_, g, ?_, ?_⟩
    · simp only [deepcopy, bind, StateT.bind, Except.bind, pure, StateT.pure, Except.pure, get, getThe, MonadStateOf.get,
        StateT.get, e]
    · simp only [itemContents, hr, hm.read (hv a rfl)]
    · rintro _ ⟨⟩
      exact ⟨by rw [hb]; exact hm.1, hb'⟩

theorem subscript_error (a : NpArray) (key : Key) (m : Memory) (e : PyErr) (h : a.place.getitem key = .error e) :
    subscript a key m = .error e := by
  simp only [subscript, bind, StateT.bind, h, liftM, monadLift, MonadLift.monadLift, StateT.lift, Except.bind]

/-- what `a[key]` gives: its contents, and whether it is new or looks into the buffer of `a` -/
theorem subscript_run (a : NpArray) (key : Key) (v : NdArr (List ℕ)) (h : a.place.getitem key = .ok v) (m : Memory) :
    ∃ r m', subscript a key m = .ok (r, m') ∧ Grow m m' ∧
      (∃ c, itemContents m' r = .arr c ∧ AlikeArray c (over (m.cells a.base) v)) ∧
      ∀ b, r = .arr b → (b.base = a.base ∧ b.place = v) ∨ (b.base = m.next ∧ b.base < m'.next) := by
  cases key with
  | ints l =>
    obtain ⟨b, m', e, g, hr, hb, hb'⟩ := newArray_run (m.read { base := a.base, place := v }) m
    refine ⟨.arr b, m', ?_, g, ⟨_, congrArg Value.arr hr, ⟨rfl, fun _ _ => rfl⟩⟩, ?_⟩
    · simp only [subscript, bind, StateT.bind, h, liftM, monadLift, MonadLift.monadLift, StateT.lift, Except.bind, pure,
        StateT.pure, Except.pure, get, getThe, MonadStateOf.get, StateT.get, e]
    · rintro _ ⟨⟩
      exact .inr ⟨hb, hb'⟩
  | int i =>
    by_cases hr : v.rshape = []
    · refine ⟨.num (m.cells a.base (v.get [])), m, ?_, Grow.refl m, ⟨_, rfl, ?_⟩, fun b hb => by cases hb⟩
      · simp only [subscript, bind, StateT.bind, h, liftM, monadLift, MonadLift.monadLift, StateT.lift, Except.bind, pure,
          StateT.pure, Except.pure, get, getThe, MonadStateOf.get, StateT.get, hr, if_true]
      · refine ⟨by simp [NdArr.scalar, over, hr], fun idx hidx => ?_⟩
        have : idx = [] := by simpa [NdArr.scalar] using hidx
        subst this
        rfl
    · refine ⟨.arr { base := a.base, place := v }, m, ?_, Grow.refl m, ⟨_, rfl, ⟨rfl, fun _ _ => rfl⟩⟩, ?_⟩
      · simp only [subscript, bind, StateT.bind, h, liftM, monadLift, MonadLift.monadLift, StateT.lift, Except.bind, pure,
          StateT.pure, Except.pure, hr, if_false]
      · rintro _ ⟨⟩
        exact .inl ⟨rfl, rfl⟩
  | slice s t =>
    refine ⟨.arr { base := a.base, place := v }, m, ?_, Grow.refl m, ⟨_, rfl, ⟨rfl, fun _ _ => rfl⟩⟩, ?_⟩
    · simp only [subscript, bind, StateT.bind, h, liftM, monadLift, MonadLift.monadLift, StateT.lift, Except.bind, pure,
        StateT.pure, Except.pure]
    · rintro _ ⟨⟩
      exact .inl ⟨rfl, rfl⟩

theorem AlikeArray.refl (a : NdArr ℝ) : AlikeArray a a := ⟨rfl, fun _ _ => rfl⟩

theorem AlikeValue.refl (v : Value ℝ) : AlikeValue v v := by
  cases v
  · exact AlikeArray.refl _
  · rfl

theorem takeItem_run (key : Key) (m₁ m : Memory) (hm : Grow m₁ m) (v : Item) (hv : ∀ a, v = .arr a → a.base < m₁.next) :
    ∃ v' m', takeItem key v m = .ok (v', m') ∧ Grow m m' ∧
      (AlikeValue (itemContents m' v') ((itemContents m₁ v).takeSlice key) ∧
      ∀ a', v' = .arr a' → ((∃ a, v = .arr a ∧ a'.base = a.base) ∨ m₁.next ≤ a'.base) ∧ a'.base < m'.next) := by
  cases v with
  | num x =>
    refine ⟨.num x, m, rfl, Grow.refl m, ?_, fun a h => by cases h⟩
    simp only [itemContents, Value.takeSlice, Value.getitem, NdArr.getitem, NdArr.scalar, List.getLast?_nil, Except.map]
    exact AlikeValue.refl _
  | flag x => exact ⟨.flag x, m, rfl, Grow.refl m, rfl, fun a h => by cases h⟩
  | arr a =>
    have ha : a.base < m₁.next := hv a rfl
    have hcells : m.cells a.base = m₁.cells a.base := hm.2 _ ha
    cases h : a.place.getitem key with
    | error e =>
      refine ⟨.arr a, m, ?_, Grow.refl m, ?_, ?_⟩
      · simp only [takeItem, subscript_error a key m e h]
      · simp only [itemContents, Value.takeSlice, Value.getitem, Memory.read, over_getitem, h, Except.map, hcells]
        exact AlikeValue.refl _
      · rintro _ ⟨⟩
        exact ⟨.inl ⟨a, rfl, rfl⟩, lt_of_lt_of_le ha hm.1⟩
    | ok w =>
      obtain ⟨r, m', e, g, ⟨c, hc, hal⟩, hb⟩ := subscript_run a key w h m
      refine ⟨r, m', by simp only [takeItem, e], g, ?_, ?_⟩
      · rw [hc]
        simp only [itemContents, Value.takeSlice, Value.getitem, Memory.read, over_getitem, h, Except.map, ← hcells]
        exact hal
      · intro b hbr
        rcases hb b hbr with hbb | hbb
        · exact ⟨.inl ⟨a, rfl, hbb.1⟩, by rw [hbb.1]; exact lt_of_lt_of_le ha (hm.1.trans g.1)⟩
        · exact ⟨.inr (by rw [hbb.1]; exact hm.1), hbb.2⟩

theorem params_run (o : Object) (m : Memory) (ho : ExistsObject m o) :
    ∃ l m', params o m = .ok (l, m') ∧ Grow m m' ∧
      List.Forall₂ (fun kv kv' => kv.1 = kv'.1 ∧ (itemContents m' kv'.2 = itemContents m kv.2 ∧
        ∀ a, kv'.2 = .arr a → m.next ≤ a.base ∧ a.base < m'.next)) o.fields l :=
  mapM_fields deepcopy (fun v => ∀ a, v = .arr a → a.base < m.next)
    (fun v v' m' => itemContents m' v' = itemContents m v ∧ ∀ a, v' = .arr a → m.next ≤ a.base ∧ a.base < m'.next) m
    (fun m' hm' v hv => deepcopy_run m m' hm' v hv)
    (fun v v' a b hq hg => ⟨by rw [hg.contents fun x hx => (hq.2 x hx).2, hq.1],
      fun x hx => ⟨(hq.2 x hx).1, lt_of_lt_of_le (hq.2 x hx).2 hg.1⟩⟩)
    o.fields (fun kv hkv a ha => ho kv hkv a ha) m (Grow.refl m)

theorem getitem_run (o : Object) (key : Key) (m : Memory) (ho : ExistsObject m o) :
    ∃ o' m', getitem o key m = .ok (o', m') ∧ Grow m m' ∧ AlikeObj (seen m' o') ((seen m o).getitem key) ∧
      ∀ kv ∈ o'.fields, ∀ a, kv.2 = .arr a → m.next ≤ a.base := by
  obtain ⟨l, m₁, e₁, g₁, q₁⟩ := params_run o m ho
  have hpre : ∀ kv ∈ l, ∀ a, kv.2 = .arr a → m.next ≤ a.base ∧ a.base < m₁.next := by
    intro kv hkv a ha
    obtain ⟨n1, p1⟩ := List.forall₂_iff_get.1 q₁
    obtain ⟨i, hi, rfl⟩ := List.mem_iff_getElem.1 hkv
    exact (p1 i (by omega) hi).2.2 a ha
  obtain ⟨l', m₂, e₂, g₂, q₂⟩ := mapM_fields (takeItem key) (fun v => ∀ a, v = .arr a → m.next ≤ a.base ∧ a.base < m₁.next)
    (fun v v' m' => (AlikeValue (itemContents m' v') ((itemContents m₁ v).takeSlice key) ∧
      ∀ a', v' = .arr a' → m.next ≤ a'.base ∧ a'.base < m'.next)) m₁
    (fun m' hm' v hv => by
      obtain ⟨v', m'', e, g, h1, h2⟩ := takeItem_run key m₁ m' hm' v fun a ha => (hv a ha).2
      refine ⟨v', m'', e, g, h1, fun a' ha' => ⟨?_, (h2 a' ha').2⟩⟩
      rcases (h2 a' ha').1 with ⟨a, ha, eb⟩ | h
      · rw [eb]; exact (hv a ha).1
      · exact g₁.1.trans h)
    (fun v v' a b hq hg => ⟨by rw [hg.contents fun x hx => (hq.2 x hx).2]; exact hq.1,
      fun x hx => ⟨(hq.2 x hx).1, lt_of_lt_of_le (hq.2 x hx).2 hg.1⟩⟩)
    l hpre m₁ (Grow.refl m₁)
  refine ⟨{ cls := o.cls, fields := l' }, m₂, ?_, g₁.trans g₂, ⟨rfl, ?_⟩, ?_⟩
  · simp only [getitem, bind, StateT.bind, Except.bind, e₁, pure, StateT.pure, Except.pure] at e₂ ⊢
    rw [e₂]
  · simp only [seen, Obj.getitem, Obj.construct, List.map_map, List.forall₂_map_left_iff, List.forall₂_map_right_iff,
      Function.comp_apply]
    obtain ⟨n1, p1⟩ := List.forall₂_iff_get.1 q₁
    obtain ⟨n2, p2⟩ := List.forall₂_iff_get.1 q₂
    refine List.forall₂_iff_get.2 ⟨by omega, fun i h1 h2 => ?_⟩
    have a1 := p1 i (by omega) (by omega)
    have a2 := p2 i (by omega) (by omega)
    exact ⟨(a1.1.trans a2.1).symm, by rw [← a1.2.1]; exact a2.2.1⟩
  · intro kv hkv a ha
    obtain ⟨n2, p2⟩ := List.forall₂_iff_get.1 q₂
    have hkv : kv ∈ l' := hkv
    obtain ⟨i, hi, rfl⟩ := List.mem_iff_getElem.1 hkv
    exact ((p2 i (by omega) hi).2.2 a ha).1

end Conj.Views

namespace Conj.Views

open Conj.Spec

theorem subscript_ints (a : NpArray) (l : List ℤ) (v : NdArr (List ℕ)) (h : a.place.getitem (.ints l) = .ok v) (m : Memory) :
    ∃ b m', subscript a (.ints l) m = .ok (.arr b, m') ∧ Grow m m' ∧ m'.read b = over (m.cells a.base) v ∧
      b.base = m.next ∧ b.base < m'.next := by
  obtain ⟨b, m', e, g, hr, hb, hb'⟩ := newArray_run (m.read { base := a.base, place := v }) m
  refine ⟨b, m', ?_, g, hr, hb, hb'⟩
  simp only [subscript, bind, StateT.bind, h, liftM, monadLift, MonadLift.monadLift, StateT.lift, Except.bind, pure,
    StateT.pure, Except.pure, get, getThe, MonadStateOf.get, StateT.get, e]

theorem subscript_slice (a : NpArray) (s t : Option ℤ) (v : NdArr (List ℕ)) (h : a.place.getitem (.slice s t) = .ok v)
    (m : Memory) : subscript a (.slice s t) m = .ok (.arr { base := a.base, place := v }, m) := by
  simp only [subscript, bind, StateT.bind, h, liftM, monadLift, MonadLift.monadLift, StateT.lift, Except.bind, pure,
    StateT.pure, Except.pure]

theorem columns_ints (a : NpArray) (l : List ℤ) (v : NdArr (List ℕ)) (h : colPlaces a.place (.ints l) = .ok v) (m : Memory) :
    ∃ b m', columns a (.ints l) m = .ok (b, m') ∧ Grow m m' ∧ m'.read b = over (m.cells a.base) v ∧
      b.base = m.next ∧ b.base < m'.next := by
  obtain ⟨b, m', e, g, hr, hb, hb'⟩ := newArray_run (m.read { base := a.base, place := v }) m
  refine ⟨b, m', ?_, g, hr, hb, hb'⟩
  simp only [columns, bind, StateT.bind, h, liftM, monadLift, MonadLift.monadLift, StateT.lift, Except.bind, pure,
    Except.pure, get, getThe, MonadStateOf.get, StateT.get, e]

theorem columns_slice (a : NpArray) (s t : Option ℤ) (v : NdArr (List ℕ)) (h : colPlaces a.place (.slice s t) = .ok v)
    (m : Memory) : columns a (.slice s t) m = .ok ({ base := a.base, place := v }, m) := by
  simp only [columns, bind, StateT.bind, h, liftM, monadLift, MonadLift.monadLift, StateT.lift, Except.bind, pure,
    StateT.pure, Except.pure]

/-- the entries of a vector at positions `p` -/
def vecAt {β : Type} (a : NdArr β) (p : List ℕ) : NdArr β :=
  { rshape := [p.length], get := fun idx => a.get (idx.dropLast ++ [p.getD (idx.getLastD 0) 0]) }

/-- the rows at positions `p` -/
def rowsAt {β : Type} (a : NdArr β) (d : ℕ) (p : List ℕ) : NdArr β :=
  { rshape := [d, p.length], get := fun idx => a.get (idx.dropLast ++ [p.getD (idx.getLastD 0) 0]) }

/-- the columns at positions `p` -/
def colsAt {β : Type} (a : NdArr β) (rows : ℕ) (p : List ℕ) : NdArr β :=
  { rshape := [p.length, rows], get := fun idx => a.get (p.getD (idx.headD 0) 0 :: idx.tail) }

theorem getitem_vec {β : Type} {a : NdArr β} {d : ℕ} (h : a.rshape = [d]) {key : Key} (hk : ∀ i, key ≠ .int i) {p : List ℕ}
    (hp : selected key d = some p) : a.getitem key = .ok (vecAt a p) := by
  cases key with
  | int i => exact absurd rfl (hk i)
  | ints l =>
    simp only [selected] at hp
    simp [NdArr.getitem, h, hp, NdArr.pick, vecAt]
  | slice s t =>
    simp only [selected, Option.some.injEq] at hp
    simp [NdArr.getitem, h, hp, NdArr.pick, vecAt]

theorem getitem_rows {β : Type} {a : NdArr β} {c d : ℕ} (h : a.rshape = [c, d]) {key : Key} (hk : ∀ i, key ≠ .int i) {p : List ℕ}
    (hp : selected key d = some p) : a.getitem key = .ok (rowsAt a c p) := by
  cases key with
  | int i => exact absurd rfl (hk i)
  | ints l =>
    simp only [selected] at hp
    simp [NdArr.getitem, h, hp, NdArr.pick, rowsAt]
  | slice s t =>
    simp only [selected, Option.some.injEq] at hp
    simp [NdArr.getitem, h, hp, NdArr.pick, rowsAt]

theorem getitem_cols {β : Type} {a : NdArr β} {c r : ℕ} (h : a.rshape = [c, r]) {key : Key} (hk : ∀ i, key ≠ .int i) {p : List ℕ}
    (hp : selected key c = some p) : colPlaces a key = .ok (colsAt a r p) := by
  cases key with
  | int i => exact absurd rfl (hk i)
  | ints l =>
    simp only [selected] at hp
    simp [colPlaces, h, hp, colsAt]
  | slice s t =>
    simp only [selected, Option.some.injEq] at hp
    simp [colPlaces, h, hp, colsAt]

theorem subVector_vecAt {a : NdArr ℝ} (p : List ℕ) : subVector a p (.arr (vecAt a p)) :=
  ⟨_, rfl, rfl, fun i _ => by simp [vecEntry, vecAt]⟩

theorem subMatrix_block {a : NdArr ℝ} (d : ℕ) (p : List ℕ) : subMatrix a p (.arr (colsAt (rowsAt a d p) p.length p)) :=
  ⟨_, rfl, rfl, fun i _ j _ => by simp [matEntry, colsAt, rowsAt]⟩

theorem over_vecAt {β γ : Type} (f : β → γ) (a : NdArr β) (p : List ℕ) : over f (vecAt a p) = vecAt (over f a) p := rfl

theorem over_rowsAt {β γ : Type} (f : β → γ) (a : NdArr β) (d : ℕ) (p : List ℕ) :
    over f (rowsAt a d p) = rowsAt (over f a) d p := rfl

theorem over_colsAt {β γ : Type} (f : β → γ) (a : NdArr β) (d : ℕ) (p : List ℕ) :
    over f (colsAt a d p) = colsAt (over f a) d p := rfl

/-- the two arrays of `d[key]` for a list: copies -/
theorem lists_run {mu cov : NpArray} {d : ℕ} (hmu : mu.place.rshape = [d]) (hcov : cov.place.rshape = [d, d]) {m : Memory}
    (hm : Exists m cov) {l : List ℤ} {p : List ℕ} (hp : selected (.ints l) d = some p) :
    ∃ b₁ m₁ b₂ m₂ b₃ m₃, subscript mu (.ints l) m = .ok (.arr b₁, m₁) ∧ subscript cov (.ints l) m₁ = .ok (.arr b₂, m₂) ∧
      columns b₂ (.ints l) m₂ = .ok (b₃, m₃) ∧ Grow m m₃ ∧ m.next ≤ b₁.base ∧ m.next ≤ b₃.base ∧
      m₃.read b₁ = vecAt (m.read mu) p ∧ m₃.read b₃ = colsAt (rowsAt (m.read cov) d p) p.length p := by
  have hk : ∀ i, Key.ints l ≠ .int i := fun i h => by cases h
  obtain ⟨b₁, m₁, e₁, g₁, r₁, n₁, n₁'⟩ := subscript_ints mu l _ (getitem_vec hmu hk hp) m
  obtain ⟨b₂, m₂, e₂, g₂, r₂, n₂, n₂'⟩ := subscript_ints cov l _ (getitem_rows hcov hk hp) m₁
  have hs : b₂.place.rshape = [d, p.length] := by
    have := congrArg NdArr.rshape r₂
    exact this
  obtain ⟨b₃, m₃, e₃, g₃, r₃, n₃, n₃'⟩ := columns_ints b₂ l _ (getitem_cols hs hk hp) m₂
  refine ⟨b₁, m₁, b₂, m₂, b₃, m₃, e₁, e₂, e₃, (g₁.trans g₂).trans g₃, by omega, ?_, ?_, ?_⟩
  · have := (g₁.trans g₂).1
    omega
  · rw [(g₂.trans g₃).read n₁', r₁]
    rfl
  · rw [r₃, over_colsAt]
    have e : over (m₂.cells b₂.base) b₂.place = m₂.read b₂ := rfl
    rw [e, r₂, over_rowsAt]
    have hc : over (m₁.cells cov.base) cov.place = m₁.read cov := rfl
    rw [hc, g₁.read hm]

end Conj.Views
