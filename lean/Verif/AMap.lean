import Verif.Base

/-! Association lists as a model of Go maps. -/

namespace Verif

/-- A Go map: an association list; the operations keep the keys distinct. -/
abbrev AMap (K V : Type) := List (K × V)

namespace AMap
variable {K V : Type} [DecidableEq K]

def get (m : AMap K V) (k : K) : Option V := (m.find? (fun e => e.1 = k)).map (·.2)
def del (m : AMap K V) (k : K) : AMap K V := m.filter (fun e => e.1 ≠ k)
def set (m : AMap K V) (k : K) (v : V) : AMap K V := (k, v) :: del m k
def keys (m : AMap K V) : List K := m.map (·.1)

@[simp] theorem get_nil (k : K) : get ([] : AMap K V) k = none := rfl

theorem get_cons (e : K × V) (m : AMap K V) (k : K) :
    get (e :: m) k = if e.1 = k then some e.2 else get m k := by
  unfold get
  by_cases h : e.1 = k <;> simp [List.find?_cons, h]

theorem get_del (m : AMap K V) (k x : K) : get (del m k) x = if x = k then none else get m x := by
  induction m with
  | nil => simp [del, get]
  | cons e m ih =>
    by_cases h : e.1 = k
    · have : del (e :: m) k = del m k := by simp [del, h]
      rw [this, ih, get_cons]
      by_cases hx : x = k
      · simp [hx]
      · have : ¬ e.1 = x := fun h' => hx (by rw [← h', h])
        simp [hx, this]
    · have : del (e :: m) k = e :: del m k := by simp [del, h]
      rw [this, get_cons, ih, get_cons]
      by_cases hx : x = k
      · subst hx; simp [h]
      · simp [hx]

theorem get_set (m : AMap K V) (k x : K) (v : V) : get (set m k v) x = if x = k then some v else get m x := by
  unfold set
  rw [get_cons, get_del]
  by_cases h : x = k
  · simp [h]
  · have : ¬ k = x := fun h' => h h'.symm
    simp [h, this]

theorem mem_keys (m : AMap K V) (k : K) : k ∈ keys m ↔ (get m k).isSome := by
  induction m with
  | nil => simp [keys]
  | cons e m ih =>
    have : keys (e :: m) = e.1 :: keys m := rfl
    rw [this, List.mem_cons, get_cons, ih]
    by_cases h : e.1 = k
    · simp [h]
    · have : ¬ k = e.1 := fun h' => h h'.symm
      simp [h, this]

theorem keys_del (m : AMap K V) (k : K) : keys (del m k) = (keys m).filter (fun x => x ≠ k) := by
  simp [keys, del, List.filter_map, Function.comp_def]

theorem nodup_del {m : AMap K V} (h : (keys m).Nodup) (k : K) : (keys (del m k)).Nodup := by
  rw [keys_del]; exact h.filter _

theorem nodup_set {m : AMap K V} (h : (keys m).Nodup) (k : K) (v : V) : (keys (set m k v)).Nodup := by
  have : keys (set m k v) = k :: keys (del m k) := rfl
  rw [this, List.nodup_cons]
  refine ⟨?_, nodup_del h k⟩
  rw [keys_del]; simp

theorem get_eq_some_of_mem {m : AMap K V} (h : (keys m).Nodup) {k : K} {v : V} (hm : (k, v) ∈ m) :
    get m k = some v := by
  induction m with
  | nil => simp at hm
  | cons e m ih =>
    have hk : keys (e :: m) = e.1 :: keys m := rfl
    rw [hk, List.nodup_cons] at h
    rw [get_cons]
    rcases List.mem_cons.mp hm with rfl | hm
    · simp
    · have : ¬ e.1 = k := by
        rintro rfl
        exact h.1 (List.mem_map.mpr ⟨_, hm, rfl⟩)
      simp [this, ih h.2 hm]

theorem mem_of_get {m : AMap K V} {k : K} {v : V} (h : get m k = some v) : (k, v) ∈ m := by
  induction m with
  | nil => simp at h
  | cons e m ih =>
    rw [get_cons] at h
    split at h
    · rename_i he
      have : e = (k, v) := by ext <;> simp_all
      simp [this]
    · exact List.mem_cons_of_mem _ (ih h)

end AMap
end Verif
