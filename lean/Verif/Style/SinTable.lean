/-!
# The sine table

The 1024 entries of `sin_table`, common/sin_table.h:4 onwards, copied mechanically.
-/
namespace Verif.Style

/-- `sin_table`, common/sin_table.h. -/
def sinList : List Int := [
  0, 100, 201, 301, 402, 502, 603, 703, 803, 904, 1004, 1104, 1205, 1305, 1405, 1505, 1605, 1705,
  1805, 1905, 2005, 2105, 2204, 2304, 2403, 2503, 2602, 2701, 2800, 2899, 2998, 3097, 3196, 3294,
  3393, 3491, 3589, 3687, 3785, 3883, 3980, 4078, 4175, 4272, 4369, 4466, 4562, 4659, 4755, 4851,
  4947, 5043, 5139, 5234, 5329, 5424, 5519, 5613, 5708, 5802, 5896, 5989, 6083, 6176, 6269, 6362,
  6454, 6547, 6639, 6730, 6822, 6913, 7004, 7095, 7185, 7276, 7365, 7455, 7545, 7634, 7722, 7811,
  7899, 7987, 8075, 8162, 8249, 8336, 8422, 8508, 8594, 8679, 8764, 8849, 8934, 9018, 9101, 9185,
  9268, 9351, 9433, 9515, 9597, 9678, 9759, 9839, 9920, 9999, 10079, 10158, 10237, 10315, 10393,
  10470, 10547, 10624, 10700, 10776, 10852, 10927, 11002, 11076, 11150, 11223, 11296, 11369,
  11441, 11513, 11584, 11655, 11725, 11795, 11865, 11934, 12003, 12071, 12139, 12206, 12273,
  12339, 12405, 12470, 12535, 12600, 12664, 12727, 12790, 12853, 12915, 12977, 13038, 13098,
  13158, 13218, 13277, 13336, 13394, 13452, 13509, 13565, 13621, 13677, 13732, 13787, 13841,
  13894, 13947, 14000, 14052, 14103, 14154, 14204, 14254, 14303, 14352, 14400, 14448, 14495,
  14542, 14588, 14633, 14678, 14722, 14766, 14810, 14852, 14894, 14936, 14977, 15017, 15057,
  15097, 15135, 15174, 15211, 15248, 15285, 15321, 15356, 15391, 15425, 15458, 15491, 15524,
  15556, 15587, 15618, 15648, 15677, 15706, 15734, 15762, 15789, 15816, 15841, 15867, 15892,
  15916, 15939, 15962, 15984, 16006, 16027, 16048, 16068, 16087, 16106, 16124, 16141, 16158,
  16174, 16190, 16205, 16220, 16233, 16247, 16259, 16271, 16283, 16293, 16304, 16313, 16322,
  16330, 16338, 16345, 16352, 16358, 16363, 16367, 16371, 16375, 16378, 16380, 16381, 16382,
  16383, 16382, 16381, 16380, 16378, 16375, 16371, 16367, 16363, 16358, 16352, 16345, 16338,
  16330, 16322, 16313, 16304, 16293, 16283, 16271, 16259, 16247, 16233, 16220, 16205, 16190,
  16174, 16158, 16141, 16124, 16106, 16087, 16068, 16048, 16027, 16006, 15984, 15962, 15939,
  15916, 15892, 15867, 15841, 15816, 15789, 15762, 15734, 15706, 15677, 15648, 15618, 15587,
  15556, 15524, 15491, 15458, 15425, 15391, 15356, 15321, 15285, 15248, 15211, 15174, 15135,
  15097, 15057, 15017, 14977, 14936, 14894, 14852, 14810, 14766, 14722, 14678, 14633, 14588,
  14542, 14495, 14448, 14400, 14352, 14303, 14254, 14204, 14154, 14103, 14052, 14000, 13947,
  13894, 13841, 13787, 13732, 13677, 13621, 13565, 13509, 13452, 13394, 13336, 13277, 13218,
  13158, 13098, 13038, 12977, 12915, 12853, 12790, 12727, 12664, 12600, 12535, 12470, 12405,
  12339, 12273, 12206, 12139, 12071, 12003, 11934, 11865, 11795, 11725, 11655, 11584, 11513,
  11441, 11369, 11296, 11223, 11150, 11076, 11002, 10927, 10852, 10776, 10700, 10624, 10547,
  10470, 10393, 10315, 10237, 10158, 10079, 9999, 9920, 9839, 9759, 9678, 9597, 9515, 9433, 9351,
  9268, 9185, 9101, 9018, 8934, 8849, 8764, 8679, 8594, 8508, 8422, 8336, 8249, 8162, 8075, 7987,
  7899, 7811, 7722, 7634, 7545, 7455, 7365, 7276, 7185, 7095, 7004, 6913, 6822, 6730, 6639, 6547,
  6454, 6362, 6269, 6176, 6083, 5989, 5896, 5802, 5708, 5613, 5519, 5424, 5329, 5234, 5139, 5043,
  4947, 4851, 4755, 4659, 4562, 4466, 4369, 4272, 4175, 4078, 3980, 3883, 3785, 3687, 3589, 3491,
  3393, 3294, 3196, 3097, 2998, 2899, 2800, 2701, 2602, 2503, 2403, 2304, 2204, 2105, 2005, 1905,
  1805, 1705, 1605, 1505, 1405, 1305, 1205, 1104, 1004, 904, 803, 703, 603, 502, 402, 301, 201,
  100, 0, -100, -201, -301, -402, -502, -603, -703, -803, -904, -1004, -1104, -1205, -1305, -1405,
  -1505, -1605, -1705, -1805, -1905, -2005, -2105, -2204, -2304, -2403, -2503, -2602, -2701,
  -2800, -2899, -2998, -3097, -3196, -3294, -3393, -3491, -3589, -3687, -3785, -3883, -3980,
  -4078, -4175, -4272, -4369, -4466, -4562, -4659, -4755, -4851, -4947, -5043, -5139, -5234,
  -5329, -5424, -5519, -5613, -5708, -5802, -5896, -5989, -6083, -6176, -6269, -6362, -6454,
  -6547, -6639, -6730, -6822, -6913, -7004, -7095, -7185, -7276, -7365, -7455, -7545, -7634,
  -7722, -7811, -7899, -7987, -8075, -8162, -8249, -8336, -8422, -8508, -8594, -8679, -8764,
  -8849, -8934, -9018, -9101, -9185, -9268, -9351, -9433, -9515, -9597, -9678, -9759, -9839,
  -9920, -9999, -10079, -10158, -10237, -10315, -10393, -10470, -10547, -10624, -10700, -10776,
  -10852, -10927, -11002, -11076, -11150, -11223, -11296, -11369, -11441, -11513, -11584, -11655,
  -11725, -11795, -11865, -11934, -12003, -12071, -12139, -12206, -12273, -12339, -12405, -12470,
  -12535, -12600, -12664, -12727, -12790, -12853, -12915, -12977, -13038, -13098, -13158, -13218,
  -13277, -13336, -13394, -13452, -13509, -13565, -13621, -13677, -13732, -13787, -13841, -13894,
  -13947, -14000, -14052, -14103, -14154, -14204, -14254, -14303, -14352, -14400, -14448, -14495,
  -14542, -14588, -14633, -14678, -14722, -14766, -14810, -14852, -14894, -14936, -14977, -15017,
  -15057, -15097, -15135, -15174, -15211, -15248, -15285, -15321, -15356, -15391, -15425, -15458,
  -15491, -15524, -15556, -15587, -15618, -15648, -15677, -15706, -15734, -15762, -15789, -15816,
  -15841, -15867, -15892, -15916, -15939, -15962, -15984, -16006, -16027, -16048, -16068, -16087,
  -16106, -16124, -16141, -16158, -16174, -16190, -16205, -16220, -16233, -16247, -16259, -16271,
  -16283, -16293, -16304, -16313, -16322, -16330, -16338, -16345, -16352, -16358, -16363, -16367,
  -16371, -16375, -16378, -16380, -16381, -16382, -16383, -16382, -16381, -16380, -16378, -16375,
  -16371, -16367, -16363, -16358, -16352, -16345, -16338, -16330, -16322, -16313, -16304, -16293,
  -16283, -16271, -16259, -16247, -16233, -16220, -16205, -16190, -16174, -16158, -16141, -16124,
  -16106, -16087, -16068, -16048, -16027, -16006, -15984, -15962, -15939, -15916, -15892, -15867,
  -15841, -15816, -15789, -15762, -15734, -15706, -15677, -15648, -15618, -15587, -15556, -15524,
  -15491, -15458, -15425, -15391, -15356, -15321, -15285, -15248, -15211, -15174, -15135, -15097,
  -15057, -15017, -14977, -14936, -14894, -14852, -14810, -14766, -14722, -14678, -14633, -14588,
  -14542, -14495, -14448, -14400, -14352, -14303, -14254, -14204, -14154, -14103, -14052, -14000,
  -13947, -13894, -13841, -13787, -13732, -13677, -13621, -13565, -13509, -13452, -13394, -13336,
  -13277, -13218, -13158, -13098, -13038, -12977, -12915, -12853, -12790, -12727, -12664, -12600,
  -12535, -12470, -12405, -12339, -12273, -12206, -12139, -12071, -12003, -11934, -11865, -11795,
  -11725, -11655, -11584, -11513, -11441, -11369, -11296, -11223, -11150, -11076, -11002, -10927,
  -10852, -10776, -10700, -10624, -10547, -10470, -10393, -10315, -10237, -10158, -10079, -9999,
  -9920, -9839, -9759, -9678, -9597, -9515, -9433, -9351, -9268, -9185, -9101, -9018, -8934,
  -8849, -8764, -8679, -8594, -8508, -8422, -8336, -8249, -8162, -8075, -7987, -7899, -7811,
  -7722, -7634, -7545, -7455, -7365, -7276, -7185, -7095, -7004, -6913, -6822, -6730, -6639,
  -6547, -6454, -6362, -6269, -6176, -6083, -5989, -5896, -5802, -5708, -5613, -5519, -5424,
  -5329, -5234, -5139, -5043, -4947, -4851, -4755, -4659, -4562, -4466, -4369, -4272, -4175,
  -4078, -3980, -3883, -3785, -3687, -3589, -3491, -3393, -3294, -3196, -3097, -2998, -2899,
  -2800, -2701, -2602, -2503, -2403, -2304, -2204, -2105, -2005, -1905, -1805, -1705, -1605,
  -1505, -1405, -1305, -1205, -1104, -1004, -904, -803, -703, -603, -502, -402, -301, -201, -100]

/-- `sin_table[i]` for an index inside the table. -/
def sinAt (i : Nat) : Int := sinList.getD i 0

end Verif.Style
