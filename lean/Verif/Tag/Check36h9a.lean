import Verif.Tag.Lanes

/-! # Distances in the largest table: pieces 0 to 19

Evaluated one theorem at a time to bound the memory of the kernel. -/

set_option Elab.async false

namespace Kalibr.Tag

theorem t36h9_turned0 : turnedCheck t36h9_0 = true := by decide +kernel
theorem t36h9_later0 : laterCheck 0 t36h9_0 = true := by decide +kernel

theorem t36h9_turned1 : turnedCheck t36h9_1 = true := by decide +kernel
theorem t36h9_later1 : laterCheck 1 t36h9_1 = true := by decide +kernel

theorem t36h9_turned2 : turnedCheck t36h9_2 = true := by decide +kernel
theorem t36h9_later2 : laterCheck 2 t36h9_2 = true := by decide +kernel

theorem t36h9_turned3 : turnedCheck t36h9_3 = true := by decide +kernel
theorem t36h9_later3 : laterCheck 3 t36h9_3 = true := by decide +kernel

theorem t36h9_turned4 : turnedCheck t36h9_4 = true := by decide +kernel
theorem t36h9_later4 : laterCheck 4 t36h9_4 = true := by decide +kernel

theorem t36h9_turned5 : turnedCheck t36h9_5 = true := by decide +kernel
theorem t36h9_later5 : laterCheck 5 t36h9_5 = true := by decide +kernel

theorem t36h9_turned6 : turnedCheck t36h9_6 = true := by decide +kernel
theorem t36h9_later6 : laterCheck 6 t36h9_6 = true := by decide +kernel

theorem t36h9_turned7 : turnedCheck t36h9_7 = true := by decide +kernel
theorem t36h9_later7 : laterCheck 7 t36h9_7 = true := by decide +kernel

theorem t36h9_turned8 : turnedCheck t36h9_8 = true := by decide +kernel
theorem t36h9_later8 : laterCheck 8 t36h9_8 = true := by decide +kernel

theorem t36h9_turned9 : turnedCheck t36h9_9 = true := by decide +kernel
theorem t36h9_later9 : laterCheck 9 t36h9_9 = true := by decide +kernel

theorem t36h9_turned10 : turnedCheck t36h9_10 = true := by decide +kernel
theorem t36h9_later10 : laterCheck 10 t36h9_10 = true := by decide +kernel

theorem t36h9_turned11 : turnedCheck t36h9_11 = true := by decide +kernel
theorem t36h9_later11 : laterCheck 11 t36h9_11 = true := by decide +kernel

theorem t36h9_turned12 : turnedCheck t36h9_12 = true := by decide +kernel
theorem t36h9_later12 : laterCheck 12 t36h9_12 = true := by decide +kernel

theorem t36h9_turned13 : turnedCheck t36h9_13 = true := by decide +kernel
theorem t36h9_later13 : laterCheck 13 t36h9_13 = true := by decide +kernel

theorem t36h9_turned14 : turnedCheck t36h9_14 = true := by decide +kernel
theorem t36h9_later14 : laterCheck 14 t36h9_14 = true := by decide +kernel

theorem t36h9_turned15 : turnedCheck t36h9_15 = true := by decide +kernel
theorem t36h9_later15 : laterCheck 15 t36h9_15 = true := by decide +kernel

theorem t36h9_turned16 : turnedCheck t36h9_16 = true := by decide +kernel
theorem t36h9_later16 : laterCheck 16 t36h9_16 = true := by decide +kernel

theorem t36h9_turned17 : turnedCheck t36h9_17 = true := by decide +kernel
theorem t36h9_later17 : laterCheck 17 t36h9_17 = true := by decide +kernel

theorem t36h9_turned18 : turnedCheck t36h9_18 = true := by decide +kernel
theorem t36h9_later18 : laterCheck 18 t36h9_18 = true := by decide +kernel

theorem t36h9_turned19 : turnedCheck t36h9_19 = true := by decide +kernel
theorem t36h9_later19 : laterCheck 19 t36h9_19 = true := by decide +kernel

end Kalibr.Tag
