import Verif.WarningsSpec

/-!
# C113: the deprecated functions
-/

namespace Conj

open Spec

theorem applies_iff {f : WarnFilter} {text module : String} {line : ℕ} :
    f.applies text module line ↔ Matches f text module line := by
  obtain ⟨a, m, c, d, l⟩ := f
  cases m <;> cases d <;>
    simp [WarnFilter.applies, Matches, WarnCategory.coversDeprecation, and_assoc]

theorem decides_iff {filters : List WarnFilter} {text module : String} {line : ℕ} {a : WarnAction} :
    Decides filters text module line a ↔
      ((filters.find? fun f => f.applies text module line).map WarnFilter.action).getD .default = a := by
  unfold Decides
  simp only [← applies_iff]
  induction filters with
  | nil =>
    constructor
    · rintro (⟨before, f, after, e, -⟩ | ⟨-, ha⟩)
      · simp at e
      · exact ha.symm
    · intro h
      exact Or.inr ⟨by simp, h.symm⟩
  | cons g l ih =>
    rw [List.find?_cons]
    by_cases hg : g.applies text module line
    · simp only [hg, Option.map_some, Option.getD_some]
      constructor
      · rintro (⟨before, f, after, e, hb, hf, ha⟩ | ⟨h, -⟩)
        · cases before with
          | nil => simp only [List.nil_append, List.cons.injEq] at e; rw [e.1]; exact ha
          | cons b before =>
            simp only [List.cons_append, List.cons.injEq] at e
            exact absurd (e.1 ▸ hg) (hb b (by simp))
        · exact absurd hg (h g (by simp))
      · intro h
        exact Or.inl ⟨[], g, l, rfl, by simp, hg, h⟩
    · simp only [hg]
      rw [← ih]
      constructor
      · rintro (⟨before, f, after, e, hb, hf, ha⟩ | ⟨h, ha⟩)
        · cases before with
          | nil => simp only [List.nil_append, List.cons.injEq] at e; exact absurd (e.1 ▸ hf) hg
          | cons b before =>
            simp only [List.cons_append, List.cons.injEq] at e
            exact Or.inl ⟨before, f, after, e.2, fun x hx => hb x (by simp [hx]), hf, ha⟩
        · exact Or.inr ⟨fun x hx => h x (by simp [hx]), ha⟩
      · rintro (⟨before, f, after, e, hb, hf, ha⟩ | ⟨h, ha⟩)
        · refine Or.inl ⟨g :: before, f, after, by simp [e], fun x hx => ?_, hf, ha⟩
          rcases List.mem_cons.1 hx with rfl | hx
          · exact hg
          · exact hb x hx
        · refine Or.inr ⟨fun x hx => ?_, ha⟩
          rcases List.mem_cons.1 hx with rfl | hx
          · exact hg
          · exact h x hx

theorem warn_one (text : String) (line : ℕ) (caller : List (String × ℕ)) (s : WarnState) :
    warn text 1 (deprecatedFrames line caller) s = warnExplicit text "conjugate.models" line s := rfl

/-- a warning either passes, or is raised because the filters say so; the filters stay -/
theorem warnExplicit_cases {text module : String} {line : ℕ} {s : WarnState} {a : WarnAction}
    (h : Decides s.filters text module line a) :
    ((warnExplicit text module line s).1 = .ok () ∨ (warnExplicit text module line s).1 = .error text ∧ a = .error) ∧
    (warnExplicit text module line s).2.filters = s.filters ∧ (warnExplicit text module line s).2.version = s.version := by
  rw [decides_iff] at h
  unfold warnExplicit
  by_cases hv : s.registryVersion module = s.version
  all_goals
    simp only [hv, if_true, if_false, h]
    split
    · simp
    · cases a <;> simp <;> split <;> simp

/-- C113. Unless the user turned the warning into an error, a deprecated function returns what its replacement returns,
or raises what it raises. -/
theorem C113_same_result {α M : Type} [PyNum α] (x_total x2_total n : α) (prior : NormalInverseGamma α α M)
    (caller : List (String × ℕ)) (s : WarnState) {a : WarnAction}
    (h : Decides s.filters updateMessage.1 updateMessage.2.1 updateMessage.2.2 a) (ha : a ≠ .error) :
    (normal_normal_inverse_gamma_warns x_total x2_total n prior caller s).1 =
      (normal x_total x2_total n (.nig prior)).mapError .exception := by
  have := (warnExplicit_cases h).1.resolve_right fun h => ha h.2
  rw [normal_normal_inverse_gamma_warns, deprecated, warn_one]
  split
  · next e => simp [updateMessage] at this; rw [e] at this; simp at this
  · rfl

/-- C113. The predictive function. -/
theorem C113_same_result_predictive {α M : Type} [PyNum α] (d : NormalInverseGamma α α M)
    (caller : List (String × ℕ)) (s : WarnState) {a : WarnAction}
    (h : Decides s.filters predictiveMessage.1 predictiveMessage.2.1 predictiveMessage.2.2 a) (ha : a ≠ .error) :
    (normal_normal_inverse_gamma_predictive_warns d caller s).1 = (normal_predictive (.nig d)).mapError .exception := by
  have := (warnExplicit_cases h).1.resolve_right fun h => ha h.2
  rw [normal_normal_inverse_gamma_predictive_warns, deprecated, warn_one]
  split
  · next e => simp [predictiveMessage] at this; rw [e] at this; simp at this
  · rfl

/-- what was recorded and printed so far, after `n` calls with this message under action `a` -/
structure Seen (s : WarnState) (a : WarnAction) (msg : String × String × ℕ) (base n : ℕ) : Prop where
  count : s.shown.count msg = base + timesShown a n
  registry : (msg.1, msg.2.2) ∈ s.registry msg.2.1 ↔ 0 < n ∧ (a = .default ∨ a = .module ∨ a = .once)
  zero : (msg.1, 0) ∈ s.registry msg.2.1 ↔ 0 < n ∧ a = .module
  once : msg.1 ∈ s.onceregistry ↔ 0 < n ∧ a = .once

theorem warnExplicit_seen {text module : String} {line : ℕ} (hl : line ≠ 0) {s : WarnState} {a : WarnAction}
    (h : Decides s.filters text module line a) (hv : s.registryVersion module = s.version) {base n : ℕ}
    (hs : Seen s a (text, module, line) base n) :
    Seen (warnExplicit text module line s).2 a (text, module, line) base (n + 1) ∧
    (warnExplicit text module line s).2.registryVersion module = s.version ∧
    (∀ text' line', text' ≠ text → line' ≠ 0 → ∀ a' base' n', Seen s a' (text', module, line') base' n' →
      Seen (warnExplicit text module line s).2 a' (text', module, line') base' n') ∧
    ∀ m, m ∈ (warnExplicit text module line s).2.shown → m ∈ s.shown ∨ m = (text, module, line) := by
  rw [decides_iff] at h
  obtain ⟨h1, h2, h3, h4⟩ := hs
  simp only at h1 h2 h3 h4
  unfold warnExplicit
  simp only [hv, if_true, h]
  by_cases hr : (text, line) ∈ s.registry module
  · simp only [hr, if_true]
    obtain ⟨hn, ha⟩ := h2.1 hr
    refine ⟨⟨?_, ?_, ?_, ?_⟩, hv, fun _ _ _ _ _ _ _ h => h, fun m hm => Or.inl hm⟩
    · simp only [h1]
      rcases ha with rfl | rfl | rfl <;> simp [timesShown] <;> omega
    · simp [hr, ha]
    · simp [h3, hn]
    · simp [h4, hn]
  · simp only [hr, if_false]
    rw [h2] at hr
    cases a with
    | ignore =>
      exact ⟨⟨by simpa [timesShown] using h1, by simpa using h2, by simpa using h3, by simpa using h4⟩, hv,
        fun _ _ _ _ _ _ _ h => h, fun m hm => Or.inl hm⟩
    | error =>
      exact ⟨⟨by simpa [timesShown] using h1, by simpa using h2, by simpa using h3, by simpa using h4⟩, hv,
        fun _ _ _ _ _ _ _ h => h, fun m hm => Or.inl hm⟩
    | always =>
      refine ⟨⟨?_, by simpa using h2, by simpa using h3, by simpa using h4⟩, hv, fun t l ht _ a' b' n' h' => ?_, ?_⟩
      · simp [h1, timesShown]; omega
      · obtain ⟨c, d, e, f⟩ := h'
        exact ⟨by simpa [List.count_cons, ht.symm] using c, d, e, f⟩
      · simp
    | default =>
      have hn : n = 0 := by simpa using hr
      subst hn
      refine ⟨⟨?_, ?_, ?_, ?_⟩, hv, fun t l ht _ a' b' n' h' => ?_, ?_⟩
      · simp [h1, timesShown]
      · simp
      · simpa [hl.symm] using h3
      · simpa using h4
      · obtain ⟨c, d, e, f⟩ := h'
        exact ⟨by simpa [List.count_cons, ht.symm] using c, by simpa [ht] using d, by simpa [ht] using e, f⟩
      · simp
    | once =>
      have hn : n = 0 := by simpa using hr
      subst hn
      have h4' : text ∉ s.onceregistry := by simpa using h4
      simp only [h4', if_false]
      refine ⟨⟨?_, ?_, ?_, ?_⟩, hv, fun t l ht _ a' b' n' h' => ?_, ?_⟩
      · simp [h1, timesShown]
      · simp
      · simpa [hl.symm] using h3
      · simp
      · obtain ⟨c, d, e, f⟩ := h'
        exact ⟨by simpa [List.count_cons, ht.symm] using c, by simpa [ht] using d, by simpa [ht] using e,
          by simpa [ht] using f⟩
      · simp
    | module =>
      have hn : n = 0 := by simpa using hr
      subst hn
      have h3' : (text, 0) ∉ s.registry module := by simpa using h3
      simp only [h3', if_false]
      refine ⟨⟨?_, ?_, ?_, ?_⟩, hv, fun t l ht _ a' b' n' h' => ?_, ?_⟩
      · simp [h1, timesShown]
      · simp
      · simp
      · simpa using h4
      · obtain ⟨c, d, e, f⟩ := h'
        exact ⟨by simpa [List.count_cons, ht.symm] using c, by simpa [ht] using d, by simpa [ht] using e, f⟩
      · simp

theorem deprecated_state {R : Type} (text : String) (line : ℕ) (r : Except PyErr R) (caller : List (String × ℕ))
    (s : WarnState) : (deprecated text 1 line r caller s).2 = (warnExplicit text "conjugate.models" line s).2 := by
  rw [deprecated, warn_one]
  split <;> simp_all

theorem run_seen {α M : Type} [PyNum α] (calls : List (DeprecatedCall α M)) :
    ∀ (s : WarnState) {a b : WarnAction} (_ : Decides s.filters updateMessage.1 updateMessage.2.1 updateMessage.2.2 a)
      (_ : Decides s.filters predictiveMessage.1 predictiveMessage.2.1 predictiveMessage.2.2 b)
      (_ : s.registryVersion "conjugate.models" = s.version) {p q i j : ℕ} (_ : Seen s a updateMessage p i)
      (_ : Seen s b predictiveMessage q j),
      Seen (DeprecatedCall.runAll calls s) a updateMessage p (i + calls.countP isUpdate) ∧
      Seen (DeprecatedCall.runAll calls s) b predictiveMessage q (j + calls.countP fun c => !isUpdate c) ∧
      ((DeprecatedCall.runAll calls s).registryVersion "conjugate.models" = s.version ∧
        (DeprecatedCall.runAll calls s).version = s.version ∧ (DeprecatedCall.runAll calls s).filters = s.filters) ∧
      ∀ m ∈ (DeprecatedCall.runAll calls s).shown, m ∈ s.shown ∨ m = updateMessage ∨ m = predictiveMessage := by
  have hne : predictiveMessage.1 ≠ updateMessage.1 := by decide
  induction calls with
  | nil => intro s a b _ _ hv p q i j h1 h2; exact ⟨h1, h2, ⟨hv, rfl, rfl⟩, fun m hm => Or.inl hm⟩
  | cons c calls ih =>
    intro s a b ha hb hv p q i j h1 h2
    cases c with
    | update x_total x2_total n prior caller =>
      have hst : DeprecatedCall.run s (.update x_total x2_total n prior caller) =
          (warnExplicit updateMessage.1 updateMessage.2.1 updateMessage.2.2 s).2 := deprecated_state _ _ _ _ _
      obtain ⟨k1, k2, k3, k4⟩ := warnExplicit_seen (by decide) ha hv h1
      obtain ⟨-, hf, hver⟩ := warnExplicit_cases ha
      have := ih (warnExplicit updateMessage.1 updateMessage.2.1 updateMessage.2.2 s).2 (hf ▸ ha) (hf ▸ hb)
        (k2.trans hver.symm) k1 (k3 _ _ hne (by decide) _ _ _ h2)
      simp only [DeprecatedCall.runAll, List.foldl_cons, hst, List.countP_cons, isUpdate] at this ⊢
      refine ⟨?_, by simpa using this.2.1, by rw [this.2.2.1.1, this.2.2.1.2.1, this.2.2.1.2.2]; exact ⟨hver, hver, hf⟩,
        fun m hm => ?_⟩
      · convert this.1 using 1; simp; ring
      · rcases this.2.2.2 m hm with h | h
        · rcases k4 m h with h | h
          · exact Or.inl h
          · exact Or.inr (Or.inl h)
        · exact Or.inr h
    | predictive d caller =>
      have hst : DeprecatedCall.run s (.predictive d caller) =
          (warnExplicit predictiveMessage.1 predictiveMessage.2.1 predictiveMessage.2.2 s).2 := deprecated_state _ _ _ _ _
      obtain ⟨k1, k2, k3, k4⟩ := warnExplicit_seen (by decide) hb hv h2
      obtain ⟨-, hf, hver⟩ := warnExplicit_cases hb
      have := ih (warnExplicit predictiveMessage.1 predictiveMessage.2.1 predictiveMessage.2.2 s).2 (hf ▸ ha) (hf ▸ hb)
        (k2.trans hver.symm) (k3 _ _ hne.symm (by decide) _ _ _ h1) k1
      simp only [DeprecatedCall.runAll, List.foldl_cons, hst, List.countP_cons, isUpdate] at this ⊢
      refine ⟨by simpa using this.1, ?_, by rw [this.2.2.1.1, this.2.2.1.2.1, this.2.2.1.2.2]; exact ⟨hver, hver, hf⟩,
        fun m hm => ?_⟩
      · convert this.2.1 using 1; simp; ring
      · rcases this.2.2.2 m hm with h | h
        · rcases k4 m h with h | h
          · exact Or.inl h
          · exact Or.inr (Or.inr h)
        · exact Or.inr h

/-- the state in which the stale records of the library have been dropped -/
def WarnState.renew (s : WarnState) : WarnState :=
  { s with registry := Function.update s.registry "conjugate.models" []
           registryVersion := Function.update s.registryVersion "conjugate.models" s.version }

theorem warnExplicit_renew (text : String) (line : ℕ) {s : WarnState}
    (h : s.registryVersion "conjugate.models" ≠ s.version) :
    warnExplicit text "conjugate.models" line s = warnExplicit text "conjugate.models" line s.renew := by
  have h2 : s.renew.registryVersion "conjugate.models" = s.renew.version := by simp [WarnState.renew]
  unfold warnExplicit
  simp only [h, h2, if_true, if_false]
  rfl

theorem run_renew {α M : Type} [PyNum α] (c : DeprecatedCall α M) {s : WarnState}
    (h : s.registryVersion "conjugate.models" ≠ s.version) : DeprecatedCall.run s c = DeprecatedCall.run s.renew c := by
  cases c with
  | update => exact (deprecated_state _ _ _ _ _).trans ((congrArg _ (warnExplicit_renew _ _ h)).trans
      (deprecated_state _ _ _ _ _).symm)
  | predictive => exact (deprecated_state _ _ _ _ _).trans ((congrArg _ (warnExplicit_renew _ _ h)).trans
      (deprecated_state _ _ _ _ _).symm)

/-- the same from a state whose records are stale -/
theorem run_stale {α M : Type} [PyNum α] (calls : List (DeprecatedCall α M)) (s : WarnState) {a b : WarnAction}
    (ha : Decides s.filters updateMessage.1 updateMessage.2.1 updateMessage.2.2 a)
    (hb : Decides s.filters predictiveMessage.1 predictiveMessage.2.1 predictiveMessage.2.2 b)
    (hv : s.registryVersion "conjugate.models" ≠ s.version)
    (hu : updateMessage.1 ∉ s.onceregistry) (hp : predictiveMessage.1 ∉ s.onceregistry) :
    (DeprecatedCall.runAll calls s).shown.count updateMessage =
      s.shown.count updateMessage + timesShown a (calls.countP isUpdate) ∧
    (DeprecatedCall.runAll calls s).shown.count predictiveMessage =
      s.shown.count predictiveMessage + timesShown b (calls.countP fun c => !isUpdate c) ∧
    ((DeprecatedCall.runAll calls s).version = s.version ∧ (DeprecatedCall.runAll calls s).filters = s.filters) ∧
    ((DeprecatedCall.runAll calls s).registryVersion "conjugate.models" = s.registryVersion "conjugate.models" ∨
      (DeprecatedCall.runAll calls s).registryVersion "conjugate.models" = s.version) ∧
    (updateMessage.1 ∈ (DeprecatedCall.runAll calls s).onceregistry → a = .once) ∧
    (predictiveMessage.1 ∈ (DeprecatedCall.runAll calls s).onceregistry → b = .once) ∧
    (calls ≠ [] → Seen (DeprecatedCall.runAll calls s) a updateMessage (s.shown.count updateMessage) (calls.countP isUpdate) ∧
      Seen (DeprecatedCall.runAll calls s) b predictiveMessage (s.shown.count predictiveMessage)
        (calls.countP fun c => !isUpdate c)) ∧
    ∀ m ∈ (DeprecatedCall.runAll calls s).shown, m ∈ s.shown ∨ m = updateMessage ∨ m = predictiveMessage := by
  cases calls with
  | nil => 
    refine ⟨by cases a <;> simp [DeprecatedCall.runAll, timesShown], by cases b <;> simp [DeprecatedCall.runAll, timesShown],
      ⟨rfl, rfl⟩, Or.inl rfl, fun h => absurd h hu, fun h => absurd h hp, fun h => absurd rfl h, fun m hm => Or.inl hm⟩
  | cons c calls =>
    have e : DeprecatedCall.runAll (c :: calls) s = DeprecatedCall.runAll (c :: calls) s.renew := by
      simp only [DeprecatedCall.runAll, List.foldl_cons]
      rw [run_renew c hv]
    have k : ∀ (a : WarnAction) (m : String × String × ℕ), m.2.1 = "conjugate.models" → m.1 ∉ s.onceregistry →
        Seen s.renew a m (s.shown.count m) 0 := fun a m hm ho => by
      refine ⟨by cases a <;> simp [WarnState.renew, timesShown], ?_, ?_, ?_⟩
      · simp [hm, WarnState.renew]
      · simp [hm, WarnState.renew]
      · simp [WarnState.renew, ho]
    obtain ⟨h1, h2, ⟨h3, h4, h5⟩, h6⟩ := run_seen (c :: calls) s.renew ha hb (by simp [WarnState.renew])
      (k a _ rfl hu) (k b _ rfl hp)
    rw [e]
    exact ⟨by simpa using h1.count, by simpa using h2.count, ⟨h4, h5⟩, Or.inr h3, fun h => (h1.once.1 h).2,
      fun h => (h2.once.1 h).2, fun _ => ⟨by simpa using h1, by simpa using h2⟩, h6⟩

theorem warnExplicit_error {text : String} {line : ℕ} {s : WarnState}
    (h : Decides s.filters text "conjugate.models" line .error)
    (hr : s.registryVersion "conjugate.models" ≠ s.version ∨ (text, line) ∉ s.registry "conjugate.models") :
    (warnExplicit text "conjugate.models" line s).1 = .error text := by
  have hd := decides_iff.1 h
  unfold warnExplicit
  by_cases hv : s.registryVersion "conjugate.models" = s.version
  · have hr := hr.resolve_left (not_not.2 hv)
    simp [hv, hr, hd]
  · simp [hv, hd]

theorem deprecated_error {R : Type} {text : String} {line : ℕ} {r : Except PyErr R} {caller : List (String × ℕ)}
    {s : WarnState} (h : (warnExplicit text "conjugate.models" line s).1 = .error text) :
    (deprecated text 1 line r caller s).1 = .error (.deprecationWarning text) := by
  rw [deprecated, warn_one]
  split
  · next e => rw [e] at h; simp at h; simp [h]
  · next e => rw [e] at h; simp at h

/-- C113. In a program that has not used the functions yet, with filters that stay as they are: whatever the calls, in
whatever order and from wherever, each message is printed as often as its filter says: never under `ignore` and `error`,
at every call under `always`, and once under `default`, `module` and `once`. Nothing else is printed.
Missing, because false (`C113_silent_by_default`): that Python's own filters show it. -/
theorem C113_messages_partial {α M : Type} [PyNum α] (calls : List (DeprecatedCall α M)) (filters : List WarnFilter)
    {a b : WarnAction} (ha : Decides filters updateMessage.1 updateMessage.2.1 updateMessage.2.2 a)
    (hb : Decides filters predictiveMessage.1 predictiveMessage.2.1 predictiveMessage.2.2 b) :
    let shown := (DeprecatedCall.runAll calls { filters := filters }).shown
    shown.count updateMessage = timesShown a (calls.countP isUpdate) ∧
      shown.count predictiveMessage = timesShown b (calls.countP fun c => !isUpdate c) ∧
      ∀ m ∈ shown, m = updateMessage ∨ m = predictiveMessage := by
  obtain ⟨h1, h2, -, -, -, -, -, h3⟩ := run_stale calls { filters := filters } ha hb (by simp) (by simp) (by simp)
  exact ⟨by simpa using h1, by simpa using h2, fun m hm => by simpa using h3 m hm⟩

/-- C113. When the filters change (`warnings.simplefilter`, `catch_warnings`, …) the library starts anew: the calls after
the change print what they would print in a new program, except under `once`. -/
theorem C113_after_new_filters {α M : Type} [PyNum α] (calls later : List (DeprecatedCall α M))
    (filters filters' : List WarnFilter) {a b a' b' : WarnAction}
    (ha : Decides filters updateMessage.1 updateMessage.2.1 updateMessage.2.2 a)
    (hb : Decides filters predictiveMessage.1 predictiveMessage.2.1 predictiveMessage.2.2 b)
    (ha' : Decides filters' updateMessage.1 updateMessage.2.1 updateMessage.2.2 a')
    (hb' : Decides filters' predictiveMessage.1 predictiveMessage.2.1 predictiveMessage.2.2 b')
    (hna : a ≠ .once) (hnb : b ≠ .once) :
    let shown := (DeprecatedCall.runAll later (setFilters filters' (DeprecatedCall.runAll calls { filters := filters }))).shown
    shown.count updateMessage = timesShown a (calls.countP isUpdate) + timesShown a' (later.countP isUpdate) ∧
      shown.count predictiveMessage = timesShown b (calls.countP fun c => !isUpdate c) +
        timesShown b' (later.countP fun c => !isUpdate c) := by
  obtain ⟨h1, h2, ⟨h3, -⟩, h4, h5, h6, -⟩ :=
    run_stale calls { filters := filters } ha hb (by simp) (by simp) (by simp)
  obtain ⟨k1, k2, -⟩ := run_stale later (setFilters filters' (DeprecatedCall.runAll calls { filters := filters })) ha' hb'
    (by
      have h3 : (DeprecatedCall.runAll calls { filters := filters }).version = 1 := h3
      simp only [setFilters, h3]
      rcases h4 with h | h <;> rw [h] <;> simp)
    (fun h => hna (h5 h)) (fun h => hnb (h6 h))
  refine ⟨k1.trans ?_, k2.trans ?_⟩
  · simp only [setFilters]; rw [h1]; simp
  · simp only [setFilters]; rw [h2]; simp

/-- C113. Python's own filters hide the messages: the calls are attributed to `conjugate.models`, and those filters show
a `DeprecationWarning` of `__main__` only. So a script that uses a deprecated function is not told (disagreement). -/
theorem C113_silent_by_default {α M : Type} [PyNum α] (calls : List (DeprecatedCall α M)) :
    (DeprecatedCall.runAll calls { filters := defaultFilters }).shown = [] := by
  have h : ∀ text line, Decides defaultFilters text "conjugate.models" line .ignore := fun text line => by
    rw [decides_iff]
    rfl
  obtain ⟨h1, h2, h3⟩ := C113_messages_partial calls defaultFilters (h _ _) (h _ _)
  refine List.eq_nil_iff_forall_not_mem.2 fun m hm => ?_
  rcases h3 m hm with rfl | rfl
  · exact absurd h1 (List.count_pos_iff.2 hm).ne'
  · exact absurd h2 (List.count_pos_iff.2 hm).ne'

/-- C113. With `stacklevel=3`, past the decorator, the first call from the script would be shown, at its line. -/
theorem C113_stacklevel {R : Type} (text : String) (line at_line : ℕ) (r : Except PyErr R) (rest : List (String × ℕ)) :
    (deprecated text 3 line r (("__main__", at_line) :: rest) { filters := defaultFilters }).2.shown =
      [(text, "__main__", at_line)] := by
  have h : Decides defaultFilters text "__main__" at_line .default := decides_iff.2 rfl
  have hd := decides_iff.1 h
  have : warn text 3 (deprecatedFrames line (("__main__", at_line) :: rest)) { filters := defaultFilters } =
      warnExplicit text "__main__" at_line { filters := defaultFilters } := rfl
  rw [deprecated, this]
  unfold warnExplicit
  simp [hd]

/-- C113. The filters decide in every case. -/
theorem C113_decides (filters : List WarnFilter) (text module : String) (line : ℕ) :
    ∃! a, Decides filters text module line a :=
  ⟨_, decides_iff.2 rfl, fun _ h => (decides_iff.1 h).symm⟩

/-- C113. A user who turns the warning into an error: after any calls, the function raises it, and prints nothing. -/
theorem C113_error {α M : Type} [PyNum α] (calls : List (DeprecatedCall α M)) (filters : List WarnFilter)
    (ha : Decides filters updateMessage.1 updateMessage.2.1 updateMessage.2.2 .error)
    (x_total x2_total n : α) (prior : NormalInverseGamma α α M) (caller : List (String × ℕ)) :
    (normal_normal_inverse_gamma_warns x_total x2_total n prior caller
      (DeprecatedCall.runAll calls { filters := filters })).1 = .error (.deprecationWarning updateMessage.1) := by
  obtain ⟨B, hB, -⟩ := C113_decides filters predictiveMessage.1 predictiveMessage.2.1 predictiveMessage.2.2
  have hB : Decides filters predictiveMessage.1 predictiveMessage.2.1 predictiveMessage.2.2 B := hB
  obtain ⟨-, -, ⟨-, hf⟩, -, -, -, h, -⟩ :=
    run_stale calls { filters := filters } ha hB (by simp) (by simp) (by simp)
  refine deprecated_error (warnExplicit_error ?_ ?_)
  · rw [hf]; exact ha
  · cases calls with
    | nil => exact Or.inl (by simp [DeprecatedCall.runAll])
    | cons c calls => exact Or.inr fun h' => by simpa using ((h (by simp)).1.registry.1 h').2

/-- C113. The predictive function. -/
theorem C113_error_predictive {α M : Type} [PyNum α] (calls : List (DeprecatedCall α M)) (filters : List WarnFilter)
    (hb : Decides filters predictiveMessage.1 predictiveMessage.2.1 predictiveMessage.2.2 .error)
    (d : NormalInverseGamma α α M) (caller : List (String × ℕ)) :
    (normal_normal_inverse_gamma_predictive_warns d caller
      (DeprecatedCall.runAll calls { filters := filters })).1 = .error (.deprecationWarning predictiveMessage.1) := by
  obtain ⟨B, hB, -⟩ := C113_decides filters updateMessage.1 updateMessage.2.1 updateMessage.2.2
  have hB : Decides filters updateMessage.1 updateMessage.2.1 updateMessage.2.2 B := hB
  obtain ⟨-, -, ⟨-, hf⟩, -, -, -, h, -⟩ :=
    run_stale calls { filters := filters } hB hb (by simp) (by simp) (by simp)
  refine deprecated_error (warnExplicit_error ?_ ?_)
  · rw [hf]; exact hb
  · cases calls with
    | nil => exact Or.inl (by simp [DeprecatedCall.runAll])
    | cons c calls => exact Or.inr fun h' => by simpa using ((h (by simp)).2.registry.1 h').2

/-- `pytest -W error` -/
example : Decides [{ action := .error, category := .warning }] updateMessage.1 updateMessage.2.1 updateMessage.2.2 .error :=
  Or.inl ⟨[], _, [], rfl, by simp, by simp [Matches], rfl⟩

/-- `-W always` -/
example : Decides [{ action := .always, category := .deprecationWarning }] predictiveMessage.1 predictiveMessage.2.1
    predictiveMessage.2.2 .always :=
  Or.inl ⟨[], _, [], rfl, by simp, by simp [Matches], rfl⟩

/-- a filter for another module does not decide -/
example : Decides [{ action := .error, category := .warning, module := some (· == "numpy") }] updateMessage.1
    updateMessage.2.1 updateMessage.2.2 .default :=
  Or.inr ⟨by simp [Matches, updateMessage], rfl⟩

/-- two calls without filters: the message once -/
example (prior : NormalInverseGamma ℝ ℝ ℝ) (caller : List (String × ℕ)) :
    (DeprecatedCall.runAll [.update 3 4 2 prior caller, .update 1 1 1 prior caller] { filters := [] }).shown.count
      updateMessage = 1 := by
  have h : ∀ text line, Decides [] text "conjugate.models" line .default := fun _ _ => decides_iff.2 rfl
  obtain ⟨h1, -⟩ := C113_messages_partial (α := ℝ) (M := ℝ) [.update 3 4 2 prior caller, .update 1 1 1 prior caller] [] (h _ _) (h _ _)
  rw [h1]
  rfl

end Conj
