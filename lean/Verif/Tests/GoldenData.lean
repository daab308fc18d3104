/-! Expected bytes of the unit tests of `writer/mod.rs` (generated by `tools/gen_golden.py`). -/

namespace TsFile.Golden

/-- `write_file_test_4` in `writer/mod.rs`. -/
def write_file_test_4 : List UInt8 := [
  84, 115, 70, 105, 108, 101, 3, 0, 4, 100, 49, 5, 4, 115, 49, 32, 1, 0, 0, 30, 30, 26, 0, 0,
  0, 2, 0, 0, 0, 7, 0, 0, 0, 0, 0, 0, 0, 9, 0, 0, 0, 0, 0, 0, 0, 1, 1, 68,
  26, 28, 30, 2, 0, 4, 115, 49, 1, 8, 3, 0, 0, 0, 0, 0, 0, 0, 1, 0, 0, 0, 0, 0,
  0, 0, 100, 0, 0, 0, 13, 0, 0, 0, 15, 0, 0, 0, 13, 0, 0, 0, 15, 0, 0, 0, 0, 0,
  0, 0, 42, 0, 0, 0, 0, 0, 0, 0, 11, 1, 4, 115, 49, 0, 0, 0, 0, 0, 0, 0, 52, 0,
  0, 0, 0, 0, 0, 0, 107, 3, 1, 4, 100, 49, 0, 0, 0, 0, 0, 0, 0, 107, 0, 0, 0, 0,
  0, 0, 0, 128, 1, 0, 0, 0, 0, 0, 0, 0, 51, 31, 4, 0, 0, 0, 0, 0, 0, 0, 0, 0,
  0, 0, 0, 0, 1, 0, 1, 0, 0, 8, 0, 0, 0, 0, 0, 0, 0, 0, 0, 0, 2, 128, 2, 5,
  0, 0, 0, 64, 84, 115, 70, 105, 108, 101]

/-- `write_multiple_types` in `writer/mod.rs`. -/
def write_multiple_types : List UInt8 := [
  84, 115, 70, 105, 108, 101, 3, 0, 4, 100, 49, 5, 4, 115, 49, 28, 1, 0, 0, 26, 26, 24, 0, 0,
  0, 0, 0, 0, 0, 0, 127, 255, 255, 255, 255, 255, 255, 255, 0, 0, 0, 0, 0, 0, 0, 1, 26, 5,
  4, 115, 50, 35, 2, 0, 0, 33, 33, 24, 0, 0, 0, 0, 0, 0, 0, 0, 127, 255, 255, 255, 255, 255,
  255, 255, 0, 0, 0, 0, 0, 0, 0, 1, 0, 0, 0, 0, 0, 0, 0, 14, 5, 4, 115, 51, 31, 3,
  0, 0, 29, 29, 24, 0, 0, 0, 0, 0, 0, 0, 0, 127, 255, 255, 255, 255, 255, 255, 255, 0, 0, 0,
  0, 0, 0, 0, 1, 65, 112, 0, 0, 2, 0, 4, 115, 49, 1, 8, 1, 0, 0, 0, 0, 0, 0, 0,
  1, 0, 0, 0, 0, 0, 0, 0, 1, 0, 0, 0, 13, 0, 0, 0, 13, 0, 0, 0, 13, 0, 0, 0,
  13, 0, 0, 0, 0, 0, 0, 0, 13, 0, 0, 0, 0, 0, 0, 0, 11, 0, 4, 115, 50, 2, 8, 1,
  0, 0, 0, 0, 0, 0, 0, 1, 0, 0, 0, 0, 0, 0, 0, 1, 0, 0, 0, 0, 0, 0, 0, 14,
  0, 0, 0, 0, 0, 0, 0, 14, 0, 0, 0, 0, 0, 0, 0, 14, 0, 0, 0, 0, 0, 0, 0, 14,
  64, 44, 0, 0, 0, 0, 0, 0, 0, 0, 0, 0, 0, 0, 0, 47, 0, 4, 115, 51, 3, 8, 1, 0,
  0, 0, 0, 0, 0, 0, 1, 0, 0, 0, 0, 0, 0, 0, 1, 65, 112, 0, 0, 65, 112, 0, 0, 65,
  112, 0, 0, 65, 112, 0, 0, 64, 46, 0, 0, 0, 0, 0, 0, 0, 0, 0, 0, 0, 0, 0, 90, 1,
  4, 115, 49, 0, 0, 0, 0, 0, 0, 0, 130, 0, 0, 0, 0, 0, 0, 1, 55, 3, 1, 4, 100, 49,
  0, 0, 0, 0, 0, 0, 1, 55, 0, 0, 0, 0, 0, 0, 1, 76, 1, 0, 0, 0, 0, 0, 0, 0,
  129, 32, 4, 0, 0, 0, 0, 0, 36, 2, 0, 0, 128, 0, 0, 0, 1, 0, 33, 0, 0, 24, 128, 0,
  0, 0, 0, 0, 68, 0, 0, 0, 2, 32, 128, 2, 5, 0, 0, 0, 65, 84, 115, 70, 105, 108, 101]

/-- `write_datapoint_int32` in `writer/mod.rs`. -/
def write_datapoint_int32 : List UInt8 := [
  84, 115, 70, 105, 108, 101, 3, 0, 4, 100, 49, 5, 2, 115, 28, 1, 0, 0, 26, 26, 24, 0, 0, 0,
  0, 0, 0, 0, 0, 127, 255, 255, 255, 255, 255, 255, 255, 0, 0, 0, 0, 0, 0, 0, 1, 26, 2, 0,
  2, 115, 1, 8, 1, 0, 0, 0, 0, 0, 0, 0, 1, 0, 0, 0, 0, 0, 0, 0, 1, 0, 0, 0,
  13, 0, 0, 0, 13, 0, 0, 0, 13, 0, 0, 0, 13, 0, 0, 0, 0, 0, 0, 0, 13, 0, 0, 0,
  0, 0, 0, 0, 11, 1, 2, 115, 0, 0, 0, 0, 0, 0, 0, 47, 0, 0, 0, 0, 0, 0, 0, 101,
  3, 1, 4, 100, 49, 0, 0, 0, 0, 0, 0, 0, 101, 0, 0, 0, 0, 0, 0, 0, 121, 1, 0, 0,
  0, 0, 0, 0, 0, 46, 32, 0, 0, 0, 0, 0, 0, 0, 2, 0, 0, 4, 0, 0, 0, 0, 0, 0,
  0, 0, 0, 128, 0, 0, 0, 0, 0, 128, 0, 0, 0, 0, 8, 128, 2, 5, 0, 0, 0, 65, 84, 115,
  70, 105, 108, 101]

/-- `write_datapoint_int64` in `writer/mod.rs`. -/
def write_datapoint_int64 : List UInt8 := [
  84, 115, 70, 105, 108, 101, 3, 0, 4, 100, 49, 5, 2, 115, 35, 2, 0, 0, 33, 33, 24, 0, 0, 0,
  0, 0, 0, 0, 0, 127, 255, 255, 255, 255, 255, 255, 255, 0, 0, 0, 0, 0, 0, 0, 1, 0, 0, 0,
  0, 0, 0, 0, 13, 2, 0, 2, 115, 2, 8, 1, 0, 0, 0, 0, 0, 0, 0, 1, 0, 0, 0, 0,
  0, 0, 0, 1, 0, 0, 0, 0, 0, 0, 0, 13, 0, 0, 0, 0, 0, 0, 0, 13, 0, 0, 0, 0,
  0, 0, 0, 13, 0, 0, 0, 0, 0, 0, 0, 13, 64, 42, 0, 0, 0, 0, 0, 0, 0, 0, 0, 0,
  0, 0, 0, 11, 1, 2, 115, 0, 0, 0, 0, 0, 0, 0, 54, 0, 0, 0, 0, 0, 0, 0, 124, 3,
  1, 4, 100, 49, 0, 0, 0, 0, 0, 0, 0, 124, 0, 0, 0, 0, 0, 0, 0, 144, 1, 0, 0, 0,
  0, 0, 0, 0, 53, 32, 0, 0, 0, 0, 0, 0, 0, 2, 0, 0, 4, 0, 0, 0, 0, 0, 0, 0,
  0, 0, 128, 0, 0, 0, 0, 0, 128, 0, 0, 0, 0, 8, 128, 2, 5, 0, 0, 0, 65, 84, 115, 70,
  105, 108, 101]

/-- `write_datapoint_float` in `writer/mod.rs`. -/
def write_datapoint_float : List UInt8 := [
  84, 115, 70, 105, 108, 101, 3, 0, 4, 100, 49, 5, 2, 115, 31, 3, 0, 0, 29, 29, 24, 0, 0, 0,
  0, 0, 0, 0, 0, 127, 255, 255, 255, 255, 255, 255, 255, 0, 0, 0, 0, 0, 0, 0, 1, 65, 80, 0,
  0, 2, 0, 2, 115, 3, 8, 1, 0, 0, 0, 0, 0, 0, 0, 1, 0, 0, 0, 0, 0, 0, 0, 1,
  65, 80, 0, 0, 65, 80, 0, 0, 65, 80, 0, 0, 65, 80, 0, 0, 64, 42, 0, 0, 0, 0, 0, 0,
  0, 0, 0, 0, 0, 0, 0, 11, 1, 2, 115, 0, 0, 0, 0, 0, 0, 0, 50, 0, 0, 0, 0, 0,
  0, 0, 104, 3, 1, 4, 100, 49, 0, 0, 0, 0, 0, 0, 0, 104, 0, 0, 0, 0, 0, 0, 0, 124,
  1, 0, 0, 0, 0, 0, 0, 0, 49, 32, 0, 0, 0, 0, 0, 0, 0, 2, 0, 0, 4, 0, 0, 0,
  0, 0, 0, 0, 0, 0, 128, 0, 0, 0, 0, 0, 128, 0, 0, 0, 0, 8, 128, 2, 5, 0, 0, 0,
  65, 84, 115, 70, 105, 108, 101]

/-- `write_datapoint_int32_1000` in `writer/mod.rs`. -/
def write_datapoint_int32_1000 : List UInt8 := [
  84, 115, 70, 105, 108, 101, 3, 0, 4, 100, 49, 5, 2, 115, 216, 16, 1, 0, 0, 212, 16, 212, 16, 192,
  1, 0, 0, 0, 128, 0, 0, 0, 0, 0, 0, 0, 0, 0, 0, 0, 1, 0, 0, 0, 0, 0, 0, 0,
  0, 0, 0, 0, 128, 0, 0, 0, 0, 0, 0, 0, 0, 0, 0, 0, 1, 0, 0, 0, 0, 0, 0, 0,
  129, 0, 0, 0, 128, 0, 0, 0, 0, 0, 0, 0, 0, 0, 0, 0, 1, 0, 0, 0, 0, 0, 0, 1,
  2, 0, 0, 0, 128, 0, 0, 0, 0, 0, 0, 0, 0, 0, 0, 0, 1, 0, 0, 0, 0, 0, 0, 1,
  131, 0, 0, 0, 128, 0, 0, 0, 0, 0, 0, 0, 0, 0, 0, 0, 1, 0, 0, 0, 0, 0, 0, 2,
  4, 0, 0, 0, 128, 0, 0, 0, 0, 0, 0, 0, 0, 0, 0, 0, 1, 0, 0, 0, 0, 0, 0, 2,
  133, 0, 0, 0, 128, 0, 0, 0, 0, 0, 0, 0, 0, 0, 0, 0, 1, 0, 0, 0, 0, 0, 0, 3,
  6, 0, 0, 0, 97, 0, 0, 0, 0, 0, 0, 0, 0, 0, 0, 0, 1, 0, 0, 0, 0, 0, 0, 3,
  135, 0, 2, 4, 6, 8, 10, 12, 14, 16, 18, 20, 22, 24, 26, 28, 30, 32, 34, 36, 38, 40, 42, 44,
  46, 48, 50, 52, 54, 56, 58, 60, 62, 64, 66, 68, 70, 72, 74, 76, 78, 80, 82, 84, 86, 88, 90, 92,
  94, 96, 98, 100, 102, 104, 106, 108, 110, 112, 114, 116, 118, 120, 122, 124, 126, 128, 1, 130, 1, 132, 1, 134,
  1, 136, 1, 138, 1, 140, 1, 142, 1, 144, 1, 146, 1, 148, 1, 150, 1, 152, 1, 154, 1, 156, 1, 158,
  1, 160, 1, 162, 1, 164, 1, 166, 1, 168, 1, 170, 1, 172, 1, 174, 1, 176, 1, 178, 1, 180, 1, 182,
  1, 184, 1, 186, 1, 188, 1, 190, 1, 192, 1, 194, 1, 196, 1, 198, 1, 200, 1, 202, 1, 204, 1, 206,
  1, 208, 1, 210, 1, 212, 1, 214, 1, 216, 1, 218, 1, 220, 1, 222, 1, 224, 1, 226, 1, 228, 1, 230,
  1, 232, 1, 234, 1, 236, 1, 238, 1, 240, 1, 242, 1, 244, 1, 246, 1, 248, 1, 250, 1, 252, 1, 254,
  1, 128, 2, 130, 2, 132, 2, 134, 2, 136, 2, 138, 2, 140, 2, 142, 2, 144, 2, 146, 2, 148, 2, 150,
  2, 152, 2, 154, 2, 156, 2, 158, 2, 160, 2, 162, 2, 164, 2, 166, 2, 168, 2, 170, 2, 172, 2, 174,
  2, 176, 2, 178, 2, 180, 2, 182, 2, 184, 2, 186, 2, 188, 2, 190, 2, 192, 2, 194, 2, 196, 2, 198,
  2, 200, 2, 202, 2, 204, 2, 206, 2, 208, 2, 210, 2, 212, 2, 214, 2, 216, 2, 218, 2, 220, 2, 222,
  2, 224, 2, 226, 2, 228, 2, 230, 2, 232, 2, 234, 2, 236, 2, 238, 2, 240, 2, 242, 2, 244, 2, 246,
  2, 248, 2, 250, 2, 252, 2, 254, 2, 128, 3, 130, 3, 132, 3, 134, 3, 136, 3, 138, 3, 140, 3, 142,
  3, 144, 3, 146, 3, 148, 3, 150, 3, 152, 3, 154, 3, 156, 3, 158, 3, 160, 3, 162, 3, 164, 3, 166,
  3, 168, 3, 170, 3, 172, 3, 174, 3, 176, 3, 178, 3, 180, 3, 182, 3, 184, 3, 186, 3, 188, 3, 190,
  3, 192, 3, 194, 3, 196, 3, 198, 3, 200, 3, 202, 3, 204, 3, 206, 3, 208, 3, 210, 3, 212, 3, 214,
  3, 216, 3, 218, 3, 220, 3, 222, 3, 224, 3, 226, 3, 228, 3, 230, 3, 232, 3, 234, 3, 236, 3, 238,
  3, 240, 3, 242, 3, 244, 3, 246, 3, 248, 3, 250, 3, 252, 3, 254, 3, 128, 4, 130, 4, 132, 4, 134,
  4, 136, 4, 138, 4, 140, 4, 142, 4, 144, 4, 146, 4, 148, 4, 150, 4, 152, 4, 154, 4, 156, 4, 158,
  4, 160, 4, 162, 4, 164, 4, 166, 4, 168, 4, 170, 4, 172, 4, 174, 4, 176, 4, 178, 4, 180, 4, 182,
  4, 184, 4, 186, 4, 188, 4, 190, 4, 192, 4, 194, 4, 196, 4, 198, 4, 200, 4, 202, 4, 204, 4, 206,
  4, 208, 4, 210, 4, 212, 4, 214, 4, 216, 4, 218, 4, 220, 4, 222, 4, 224, 4, 226, 4, 228, 4, 230,
  4, 232, 4, 234, 4, 236, 4, 238, 4, 240, 4, 242, 4, 244, 4, 246, 4, 248, 4, 250, 4, 252, 4, 254,
  4, 128, 5, 130, 5, 132, 5, 134, 5, 136, 5, 138, 5, 140, 5, 142, 5, 144, 5, 146, 5, 148, 5, 150,
  5, 152, 5, 154, 5, 156, 5, 158, 5, 160, 5, 162, 5, 164, 5, 166, 5, 168, 5, 170, 5, 172, 5, 174,
  5, 176, 5, 178, 5, 180, 5, 182, 5, 184, 5, 186, 5, 188, 5, 190, 5, 192, 5, 194, 5, 196, 5, 198,
  5, 200, 5, 202, 5, 204, 5, 206, 5, 208, 5, 210, 5, 212, 5, 214, 5, 216, 5, 218, 5, 220, 5, 222,
  5, 224, 5, 226, 5, 228, 5, 230, 5, 232, 5, 234, 5, 236, 5, 238, 5, 240, 5, 242, 5, 244, 5, 246,
  5, 248, 5, 250, 5, 252, 5, 254, 5, 128, 6, 130, 6, 132, 6, 134, 6, 136, 6, 138, 6, 140, 6, 142,
  6, 144, 6, 146, 6, 148, 6, 150, 6, 152, 6, 154, 6, 156, 6, 158, 6, 160, 6, 162, 6, 164, 6, 166,
  6, 168, 6, 170, 6, 172, 6, 174, 6, 176, 6, 178, 6, 180, 6, 182, 6, 184, 6, 186, 6, 188, 6, 190,
  6, 192, 6, 194, 6, 196, 6, 198, 6, 200, 6, 202, 6, 204, 6, 206, 6, 208, 6, 210, 6, 212, 6, 214,
  6, 216, 6, 218, 6, 220, 6, 222, 6, 224, 6, 226, 6, 228, 6, 230, 6, 232, 6, 234, 6, 236, 6, 238,
  6, 240, 6, 242, 6, 244, 6, 246, 6, 248, 6, 250, 6, 252, 6, 254, 6, 128, 7, 130, 7, 132, 7, 134,
  7, 136, 7, 138, 7, 140, 7, 142, 7, 144, 7, 146, 7, 148, 7, 150, 7, 152, 7, 154, 7, 156, 7, 158,
  7, 160, 7, 162, 7, 164, 7, 166, 7, 168, 7, 170, 7, 172, 7, 174, 7, 176, 7, 178, 7, 180, 7, 182,
  7, 184, 7, 186, 7, 188, 7, 190, 7, 192, 7, 194, 7, 196, 7, 198, 7, 200, 7, 202, 7, 204, 7, 206,
  7, 208, 7, 210, 7, 212, 7, 214, 7, 216, 7, 218, 7, 220, 7, 222, 7, 224, 7, 226, 7, 228, 7, 230,
  7, 232, 7, 234, 7, 236, 7, 238, 7, 240, 7, 242, 7, 244, 7, 246, 7, 248, 7, 250, 7, 252, 7, 254,
  7, 128, 8, 130, 8, 132, 8, 134, 8, 136, 8, 138, 8, 140, 8, 142, 8, 144, 8, 146, 8, 148, 8, 150,
  8, 152, 8, 154, 8, 156, 8, 158, 8, 160, 8, 162, 8, 164, 8, 166, 8, 168, 8, 170, 8, 172, 8, 174,
  8, 176, 8, 178, 8, 180, 8, 182, 8, 184, 8, 186, 8, 188, 8, 190, 8, 192, 8, 194, 8, 196, 8, 198,
  8, 200, 8, 202, 8, 204, 8, 206, 8, 208, 8, 210, 8, 212, 8, 214, 8, 216, 8, 218, 8, 220, 8, 222,
  8, 224, 8, 226, 8, 228, 8, 230, 8, 232, 8, 234, 8, 236, 8, 238, 8, 240, 8, 242, 8, 244, 8, 246,
  8, 248, 8, 250, 8, 252, 8, 254, 8, 128, 9, 130, 9, 132, 9, 134, 9, 136, 9, 138, 9, 140, 9, 142,
  9, 144, 9, 146, 9, 148, 9, 150, 9, 152, 9, 154, 9, 156, 9, 158, 9, 160, 9, 162, 9, 164, 9, 166,
  9, 168, 9, 170, 9, 172, 9, 174, 9, 176, 9, 178, 9, 180, 9, 182, 9, 184, 9, 186, 9, 188, 9, 190,
  9, 192, 9, 194, 9, 196, 9, 198, 9, 200, 9, 202, 9, 204, 9, 206, 9, 208, 9, 210, 9, 212, 9, 214,
  9, 216, 9, 218, 9, 220, 9, 222, 9, 224, 9, 226, 9, 228, 9, 230, 9, 232, 9, 234, 9, 236, 9, 238,
  9, 240, 9, 242, 9, 244, 9, 246, 9, 248, 9, 250, 9, 252, 9, 254, 9, 128, 10, 130, 10, 132, 10, 134,
  10, 136, 10, 138, 10, 140, 10, 142, 10, 144, 10, 146, 10, 148, 10, 150, 10, 152, 10, 154, 10, 156, 10, 158,
  10, 160, 10, 162, 10, 164, 10, 166, 10, 168, 10, 170, 10, 172, 10, 174, 10, 176, 10, 178, 10, 180, 10, 182,
  10, 184, 10, 186, 10, 188, 10, 190, 10, 192, 10, 194, 10, 196, 10, 198, 10, 200, 10, 202, 10, 204, 10, 206,
  10, 208, 10, 210, 10, 212, 10, 214, 10, 216, 10, 218, 10, 220, 10, 222, 10, 224, 10, 226, 10, 228, 10, 230,
  10, 232, 10, 234, 10, 236, 10, 238, 10, 240, 10, 242, 10, 244, 10, 246, 10, 248, 10, 250, 10, 252, 10, 254,
  10, 128, 11, 130, 11, 132, 11, 134, 11, 136, 11, 138, 11, 140, 11, 142, 11, 144, 11, 146, 11, 148, 11, 150,
  11, 152, 11, 154, 11, 156, 11, 158, 11, 160, 11, 162, 11, 164, 11, 166, 11, 168, 11, 170, 11, 172, 11, 174,
  11, 176, 11, 178, 11, 180, 11, 182, 11, 184, 11, 186, 11, 188, 11, 190, 11, 192, 11, 194, 11, 196, 11, 198,
  11, 200, 11, 202, 11, 204, 11, 206, 11, 208, 11, 210, 11, 212, 11, 214, 11, 216, 11, 218, 11, 220, 11, 222,
  11, 224, 11, 226, 11, 228, 11, 230, 11, 232, 11, 234, 11, 236, 11, 238, 11, 240, 11, 242, 11, 244, 11, 246,
  11, 248, 11, 250, 11, 252, 11, 254, 11, 128, 12, 130, 12, 132, 12, 134, 12, 136, 12, 138, 12, 140, 12, 142,
  12, 144, 12, 146, 12, 148, 12, 150, 12, 152, 12, 154, 12, 156, 12, 158, 12, 160, 12, 162, 12, 164, 12, 166,
  12, 168, 12, 170, 12, 172, 12, 174, 12, 176, 12, 178, 12, 180, 12, 182, 12, 184, 12, 186, 12, 188, 12, 190,
  12, 192, 12, 194, 12, 196, 12, 198, 12, 200, 12, 202, 12, 204, 12, 206, 12, 208, 12, 210, 12, 212, 12, 214,
  12, 216, 12, 218, 12, 220, 12, 222, 12, 224, 12, 226, 12, 228, 12, 230, 12, 232, 12, 234, 12, 236, 12, 238,
  12, 240, 12, 242, 12, 244, 12, 246, 12, 248, 12, 250, 12, 252, 12, 254, 12, 128, 13, 130, 13, 132, 13, 134,
  13, 136, 13, 138, 13, 140, 13, 142, 13, 144, 13, 146, 13, 148, 13, 150, 13, 152, 13, 154, 13, 156, 13, 158,
  13, 160, 13, 162, 13, 164, 13, 166, 13, 168, 13, 170, 13, 172, 13, 174, 13, 176, 13, 178, 13, 180, 13, 182,
  13, 184, 13, 186, 13, 188, 13, 190, 13, 192, 13, 194, 13, 196, 13, 198, 13, 200, 13, 202, 13, 204, 13, 206,
  13, 208, 13, 210, 13, 212, 13, 214, 13, 216, 13, 218, 13, 220, 13, 222, 13, 224, 13, 226, 13, 228, 13, 230,
  13, 232, 13, 234, 13, 236, 13, 238, 13, 240, 13, 242, 13, 244, 13, 246, 13, 248, 13, 250, 13, 252, 13, 254,
  13, 128, 14, 130, 14, 132, 14, 134, 14, 136, 14, 138, 14, 140, 14, 142, 14, 144, 14, 146, 14, 148, 14, 150,
  14, 152, 14, 154, 14, 156, 14, 158, 14, 160, 14, 162, 14, 164, 14, 166, 14, 168, 14, 170, 14, 172, 14, 174,
  14, 176, 14, 178, 14, 180, 14, 182, 14, 184, 14, 186, 14, 188, 14, 190, 14, 192, 14, 194, 14, 196, 14, 198,
  14, 200, 14, 202, 14, 204, 14, 206, 14, 208, 14, 210, 14, 212, 14, 214, 14, 216, 14, 218, 14, 220, 14, 222,
  14, 224, 14, 226, 14, 228, 14, 230, 14, 232, 14, 234, 14, 236, 14, 238, 14, 240, 14, 242, 14, 244, 14, 246,
  14, 248, 14, 250, 14, 252, 14, 254, 14, 128, 15, 130, 15, 132, 15, 134, 15, 136, 15, 138, 15, 140, 15, 142,
  15, 144, 15, 146, 15, 148, 15, 150, 15, 152, 15, 154, 15, 156, 15, 158, 15, 160, 15, 162, 15, 164, 15, 166,
  15, 168, 15, 170, 15, 172, 15, 174, 15, 176, 15, 178, 15, 180, 15, 182, 15, 184, 15, 186, 15, 188, 15, 190,
  15, 192, 15, 194, 15, 196, 15, 198, 15, 200, 15, 202, 15, 204, 15, 206, 15, 208, 15, 2, 0, 2, 115, 1,
  8, 233, 7, 0, 0, 0, 0, 0, 0, 0, 0, 0, 0, 0, 0, 0, 0, 3, 232, 0, 0, 0, 0, 0,
  0, 3, 232, 0, 0, 0, 0, 0, 0, 3, 232, 0, 0, 0, 0, 0, 7, 163, 20, 0, 0, 0, 0, 0,
  0, 0, 11, 1, 2, 115, 0, 0, 0, 0, 0, 0, 8, 108, 0, 0, 0, 0, 0, 0, 8, 163, 3, 1,
  4, 100, 49, 0, 0, 0, 0, 0, 0, 8, 163, 0, 0, 0, 0, 0, 0, 8, 183, 1, 0, 0, 0, 0,
  0, 0, 8, 107, 32, 0, 0, 0, 0, 0, 0, 0, 2, 0, 0, 4, 0, 0, 0, 0, 0, 0, 0, 0,
  0, 128, 0, 0, 0, 0, 0, 128, 0, 0, 0, 0, 8, 128, 2, 5, 0, 0, 0, 65, 84, 115, 70, 105,
  108, 101]

/-- `write_i64_snappy` in `writer/mod.rs`. -/
def write_i64_snappy : List UInt8 := [
  84, 115, 70, 105, 108, 101, 3, 0, 4, 100, 49, 5, 4, 115, 49, 25, 2, 1, 0, 33, 23, 33, 4, 24,
  0, 13, 1, 4, 127, 255, 9, 1, 13, 15, 32, 1, 0, 0, 0, 0, 0, 0, 0, 13, 2, 0, 4, 115,
  49, 2, 8, 1, 0, 0, 0, 0, 0, 0, 0, 1, 0, 0, 0, 0, 0, 0, 0, 1, 0, 0, 0, 0,
  0, 0, 0, 13, 0, 0, 0, 0, 0, 0, 0, 13, 0, 0, 0, 0, 0, 0, 0, 13, 0, 0, 0, 0,
  0, 0, 0, 13, 64, 42, 0, 0, 0, 0, 0, 0, 0, 0, 0, 0, 0, 0, 0, 11, 1, 4, 115, 49,
  0, 0, 0, 0, 0, 0, 0, 45, 0, 0, 0, 0, 0, 0, 0, 116, 3, 1, 4, 100, 49, 0, 0, 0,
  0, 0, 0, 0, 116, 0, 0, 0, 0, 0, 0, 0, 137, 1, 0, 0, 0, 0, 0, 0, 0, 44, 31, 4,
  0, 0, 0, 0, 0, 0, 0, 0, 0, 0, 0, 0, 0, 1, 0, 1, 0, 0, 8, 0, 0, 0, 0, 0,
  0, 0, 0, 0, 0, 2, 128, 2, 5, 0, 0, 0, 64, 84, 115, 70, 105, 108, 101]

/-- `write_i64_ts2diff` in `writer/mod.rs`. -/
def write_i64_ts2diff : List UInt8 := [
  84, 115, 70, 105, 108, 101, 3, 0, 4, 100, 49, 5, 4, 115, 49, 51, 2, 0, 4, 49, 49, 24, 0, 0,
  0, 9, 0, 0, 0, 0, 0, 0, 0, 0, 0, 0, 0, 1, 0, 0, 0, 0, 0, 0, 0, 0, 0, 0,
  0, 9, 0, 0, 0, 0, 0, 0, 0, 0, 0, 0, 0, 1, 0, 0, 0, 0, 0, 0, 0, 0, 2, 0,
  4, 115, 49, 2, 8, 10, 0, 0, 0, 0, 0, 0, 0, 0, 0, 0, 0, 0, 0, 0, 0, 9, 0, 0,
  0, 0, 0, 0, 0, 0, 0, 0, 0, 0, 0, 0, 0, 9, 0, 0, 0, 0, 0, 0, 0, 0, 0, 0,
  0, 0, 0, 0, 0, 9, 64, 70, 128, 0, 0, 0, 0, 0, 0, 0, 0, 0, 0, 0, 0, 11, 1, 4,
  115, 49, 0, 0, 0, 0, 0, 0, 0, 71, 0, 0, 0, 0, 0, 0, 0, 142, 3, 1, 4, 100, 49, 0,
  0, 0, 0, 0, 0, 0, 142, 0, 0, 0, 0, 0, 0, 0, 163, 1, 0, 0, 0, 0, 0, 0, 0, 70,
  31, 4, 0, 0, 0, 0, 0, 0, 0, 0, 0, 0, 0, 0, 0, 1, 0, 1, 0, 0, 8, 0, 0, 0,
  0, 0, 0, 0, 0, 0, 0, 2, 128, 2, 5, 0, 0, 0, 64, 84, 115, 70, 105, 108, 101]

/-- `write_i32_ts2diff` in `writer/mod.rs`. -/
def write_i32_ts2diff : List UInt8 := [
  84, 115, 70, 105, 108, 101, 3, 0, 4, 100, 49, 5, 4, 115, 49, 43, 1, 0, 4, 41, 41, 24, 0, 0,
  0, 9, 0, 0, 0, 0, 0, 0, 0, 0, 0, 0, 0, 1, 0, 0, 0, 0, 0, 0, 0, 0, 0, 0,
  0, 9, 0, 0, 0, 0, 0, 0, 0, 1, 0, 0, 0, 0, 2, 0, 4, 115, 49, 1, 8, 10, 0, 0,
  0, 0, 0, 0, 0, 0, 0, 0, 0, 0, 0, 0, 0, 9, 0, 0, 0, 0, 0, 0, 0, 9, 0, 0,
  0, 0, 0, 0, 0, 9, 0, 0, 0, 0, 0, 0, 0, 45, 0, 0, 0, 0, 0, 0, 0, 11, 1, 4,
  115, 49, 0, 0, 0, 0, 0, 0, 0, 63, 0, 0, 0, 0, 0, 0, 0, 118, 3, 1, 4, 100, 49, 0,
  0, 0, 0, 0, 0, 0, 118, 0, 0, 0, 0, 0, 0, 0, 139, 1, 0, 0, 0, 0, 0, 0, 0, 62,
  31, 4, 0, 0, 0, 0, 0, 0, 0, 0, 0, 0, 0, 0, 0, 1, 0, 1, 0, 0, 8, 0, 0, 0,
  0, 0, 0, 0, 0, 0, 0, 2, 128, 2, 5, 0, 0, 0, 64, 84, 115, 70, 105, 108, 101]

/-- `write_snappy_complex` in `writer/mod.rs`. -/
def write_snappy_complex : List UInt8 := [
  84, 115, 70, 105, 108, 101, 3, 0, 4, 100, 49, 5, 4, 115, 49, 25, 2, 1, 0, 33, 23, 33, 4, 24,
  0, 13, 1, 4, 127, 255, 9, 1, 13, 15, 32, 1, 0, 0, 0, 0, 0, 0, 0, 13, 5, 4, 115, 50,
  26, 3, 1, 0, 29, 24, 29, 4, 24, 0, 13, 1, 4, 127, 255, 9, 1, 44, 0, 0, 0, 0, 0, 0,
  0, 1, 65, 96, 0, 0, 0, 4, 100, 50, 5, 4, 115, 49, 26, 1, 1, 0, 26, 24, 26, 4, 24, 0,
  13, 1, 64, 127, 255, 255, 255, 255, 255, 255, 255, 0, 0, 0, 0, 0, 0, 0, 1, 30, 2, 0, 4, 115,
  49, 2, 8, 1, 0, 0, 0, 0, 0, 0, 0, 1, 0, 0, 0, 0, 0, 0, 0, 1, 0, 0, 0, 0,
  0, 0, 0, 13, 0, 0, 0, 0, 0, 0, 0, 13, 0, 0, 0, 0, 0, 0, 0, 13, 0, 0, 0, 0,
  0, 0, 0, 13, 64, 42, 0, 0, 0, 0, 0, 0, 0, 0, 0, 0, 0, 0, 0, 11, 0, 4, 115, 50,
  3, 8, 1, 0, 0, 0, 0, 0, 0, 0, 1, 0, 0, 0, 0, 0, 0, 0, 1, 65, 96, 0, 0, 65,
  96, 0, 0, 65, 96, 0, 0, 65, 96, 0, 0, 64, 44, 0, 0, 0, 0, 0, 0, 0, 0, 0, 0, 0,
  0, 0, 44, 0, 4, 115, 49, 1, 8, 1, 0, 0, 0, 0, 0, 0, 0, 1, 0, 0, 0, 0, 0, 0,
  0, 1, 0, 0, 0, 15, 0, 0, 0, 15, 0, 0, 0, 15, 0, 0, 0, 15, 0, 0, 0, 0, 0, 0,
  0, 15, 0, 0, 0, 0, 0, 0, 0, 82, 1, 4, 115, 49, 0, 0, 0, 0, 0, 0, 0, 117, 0, 0,
  0, 0, 0, 0, 0, 243, 3, 1, 4, 115, 49, 0, 0, 0, 0, 0, 0, 0, 243, 0, 0, 0, 0, 0,
  0, 1, 42, 3, 2, 4, 100, 49, 0, 0, 0, 0, 0, 0, 1, 42, 4, 100, 50, 0, 0, 0, 0, 0,
  0, 1, 63, 0, 0, 0, 0, 0, 0, 1, 84, 1, 0, 0, 0, 0, 0, 0, 0, 116, 32, 4, 0, 0,
  0, 4, 0, 32, 0, 0, 0, 128, 0, 0, 8, 1, 0, 33, 64, 0, 8, 128, 0, 0, 0, 0, 0, 2,
  4, 0, 0, 2, 32, 128, 2, 5, 0, 0, 0, 76, 84, 115, 70, 105, 108, 101]

end TsFile.Golden
