import Verif.Proofs.IntMargin
import Verif.Props.PyFloat
/-!
# C80 — the examples of the README

The points of both examples (README.md:157-168, 206-217) have the margins of C75 and C79, and the parameters
(defaults except for `k` and the grid resolution) leave enough room.  So the examples report the true Voronoi
neighbours of the ten points as written, in every build and on every device; in the Python example row `i` is
about point `i` of the list.
-/
namespace Votess

/-- the points as written; README.md:157-168, 206-217 -/
def readmePts : List (Pt ℚ) :=
  [⟨0.605223, 0.108484, 0.0909372⟩, ⟨0.500792, 0.499641, 0.464576⟩, ⟨0.437936, 0.786332, 0.160392⟩,
   ⟨0.663354, 0.170894, 0.810284⟩, ⟨0.614869, 0.0968678, 0.204147⟩, ⟨0.556911, 0.895342, 0.802266⟩,
   ⟨0.305748, 0.124146, 0.516249⟩, ⟨0.406888, 0.157835, 0.919622⟩, ⟨0.0944123, 0.861991, 0.798644⟩,
   ⟨0.511958, 0.560537, 0.345479⟩]

/-- the same in units of `10^-7` -/
def readmeInt : List (Pt Int) :=
  [⟨6052230, 1084840, 909372⟩, ⟨5007920, 4996410, 4645760⟩, ⟨4379360, 7863320, 1603920⟩,
   ⟨6633540, 1708940, 8102840⟩, ⟨6148690, 968678, 2041470⟩, ⟨5569110, 8953420, 8022660⟩,
   ⟨3057480, 1241460, 5162490⟩, ⟨4068880, 1578350, 9196220⟩, ⟨944123, 8619910, 7986440⟩,
   ⟨5119580, 5605370, 3454790⟩]

theorem readme_int : readmeInt.map (IntM.scale 10000000) = readmePts := by
  simp only [readmeInt, readmePts, IntM.scale, List.map_cons, List.map_nil]
  norm_num

set_option maxRecDepth 100000 in
theorem readme_test : IntM.allMarginsI 9 4 10000000 readmeInt = true := by decide +kernel

theorem readme_input : InputOK readmePts := by
  intro p hp
  simp only [readmePts, List.mem_cons, List.not_mem_nil, or_false] at hp
  rcases hp with rfl | rfl | rfl | rfl | rfl | rfl | rfl | rfl | rfl | rfl <;> norm_num

theorem readme_margins : AllMarginsBy (9 / 4) readmePts := by
  have := IntM.allMarginsI_sound (S := 10000000) (by norm_num) (by norm_num) (by norm_num) readme_test
  rw [readme_int] at this
  norm_num at this
  exact this.margins (by norm_num) (input_box readme_input)

/-! ### Python -/

/-- `vtargs["k"] = 9`, `vtargs["knn_grid_resolution"] = 1` on a new object; README.md:219-221 -/
def readmePyArgs : Except PyErr ArgMap := pySets .init [("k", .int 9), ("knn_grid_resolution", .int 1)]

theorem readmePy_params : ∃ m, readmePyArgs = .ok m ∧ m.params = .ok ⟨9, 1, 32, 32, 0, 0, false, false⟩ ∧
    m.int "gpu_ndsize" = .ok 1 :=
  ⟨_, rfl, by decide +kernel, by decide +kernel⟩

/-- C80: whatever the device, the number of processors and the compiler's fused multiply-adds, the Python example
gets a table of ten rows, and row `i` lists exactly the points whose Voronoi cells touch that of point `i`. -/
theorem C80_python (ch : Choice b32) {hw : Nat} (hhw : 1 ≤ hw) (found : Bool) (dev : Device) :
    ∃ m, readmePyArgs = .ok m ∧ (∃ d, PyResult ch hw found dev m (readmePts.map pyLit) d) ∧
      ∀ d, PyResult ch hw found dev m (readmePts.map pyLit) d → d.size = 10 ∧
        ∀ i p, readmePts[i]? = some p → ∃ row, PyRow d i row ∧ CorrectRow readmePts i p row ∧
          ExactRow readmePts i p row := by
  obtain ⟨m, h1, h2, h3⟩ := readmePy_params
  have hs : FloatSizes hw ⟨9, 1, 32, 32, 0, 0, false, false⟩ := by constructor <;> simp [hhw]
  have hroom : Roomy ⟨9, 1, 32, 32, 0, 0, false, false⟩ readmePts.length := by constructor <;> simp [readmePts]
  have hm : AllMarginsBy (2 + 1 / 2 ^ 29) readmePts := fun i p hp => (readme_margins i p hp).mono (by norm_num) (by norm_num)
  refine ⟨m, h1, ?_, fun d hd => ?_⟩
  · by_cases hcpu : dev = .cpu ∨ found = false
    · exact (C79_cpu hcpu h2 hs readme_input hm (.inl hroom) (by simp [readmePts])).1
    · push Not at hcpu
      obtain ⟨g1, g2⟩ := hcpu
      cases dev with
      | cpu => exact absurd rfl g1
      | gpu =>
        obtain rfl : found = true := by simpa using g2
        exact C79_gpu_possible h2 h3 hs readme_input hm (.inl hroom) (by simp [readmePts]) rfl (by simp) (by simp) (.inl rfl) (by norm_num) (one_dvd _)
  · obtain ⟨L, -, g2, g3, g4⟩ := C79_any_device h2 hs readme_input hm (.inl hroom) (by simp [readmePts]) rfl (by simp) (by simp) (.inl rfl) hd
    rw [g2 (C79_one_cell ch readme_input)] at g4
    exact ⟨g3, g4⟩

/-! ### C++ -/

/-- `vtargs["k"] = 9`, `vtargs["knn_grid_resolution"] = 2`; README.md:171-173.  (The line
`struct votess::vtargs vtargs();` declares a function; a new object is taken instead.) -/
def readmeArgs : Except Exn ArgMap := do
  let m ← ArgMap.init.assign "k" (showInt 9)
  m.assign "knn_grid_resolution" (showInt 2)

theorem readme_params : ∃ m, readmeArgs = .ok m ∧ m.params = .ok ⟨9, 2, 32, 32, 0, 0, false, false⟩ :=
  ⟨_, rfl, by decide +kernel⟩

/-- C80: the C++ example, which uses the CPU by default, gets exactly the true neighbours of every point of its
sorted vector. -/
theorem C80_cpp (ch : Choice b32) {hw : Nat} (hhw : 1 ≤ hw) :
    ∃ m prm, readmeArgs = .ok m ∧ m.params = .ok prm ∧ ∃ (out : TessOut (Fm ch)) (L : List (Pt ℚ)),
      tesellateCpu 4 hw prm (readmePts.map (storeFm ch)) = .ok out ∧ out.xyz = L.map (storeFm ch) ∧
      L.Perm readmePts ∧
      ∀ i p, L[i]? = some p → ∃ row, RowIs out.dnn i row ∧ CorrectRow L i p row ∧ ExactRow L i p row := by
  obtain ⟨m, h1, h2⟩ := readme_params
  refine ⟨m, _, h1, h2, C75_enough_room ch ?_ readme_input
    (fun i p hp => (readme_margins i p hp).mono (by norm_num) (by norm_num)) ?_⟩
  · constructor <;> simp [hhw]
  · constructor <;> simp [readmePts]

end Votess
