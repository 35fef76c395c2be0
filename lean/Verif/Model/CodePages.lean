import Verif.Model.StaticBuffer

/-!
# ISO-Latin code pages

The tables are copied from codepages.hpp by a script; an array with fewer than
128 initialisers is filled with zeros by C++.
-/

namespace TW

/-- codepages.hpp:87 `codePage[0]` (128 initialisers). -/
def codePage0 : List Nat := [
    128, 129, 130, 131, 132, 133, 134, 135, 136, 137, 138, 139, 140, 141, 142, 143, 144, 145,
    146, 147, 148, 149, 150, 151, 152, 153, 154, 155, 156, 157, 158, 159, 160, 161, 162, 163,
    164, 165, 166, 167, 168, 169, 170, 171, 172, 173, 174, 175, 176, 177, 178, 179, 180, 181,
    182, 183, 184, 185, 186, 187, 188, 189, 190, 191, 192, 193, 194, 195, 196, 197, 198, 199,
    200, 201, 202, 203, 204, 205, 206, 207, 208, 209, 210, 211, 212, 213, 214, 215, 216, 217,
    218, 219, 220, 221, 222, 223, 224, 225, 226, 227, 228, 229, 230, 231, 232, 233, 234, 235,
    236, 237, 238, 239, 240, 241, 242, 243, 244, 245, 246, 247, 248, 249, 250, 251, 252, 253,
    254, 255]

/-- codepages.hpp:88 `codePage[1]` (128 initialisers). -/
def codePage1 : List Nat := [
    128, 129, 130, 131, 132, 133, 134, 135, 136, 137, 138, 139, 140, 141, 142, 143, 144, 145,
    146, 147, 148, 149, 150, 151, 152, 153, 154, 155, 156, 157, 158, 159, 160, 260, 728, 321,
    164, 317, 346, 167, 168, 352, 350, 356, 377, 173, 381, 379, 176, 261, 731, 322, 180, 318,
    347, 711, 184, 353, 351, 357, 378, 733, 382, 380, 340, 193, 194, 258, 196, 313, 262, 199,
    268, 201, 280, 203, 282, 205, 206, 270, 272, 323, 327, 211, 212, 336, 214, 215, 344, 366,
    218, 368, 220, 221, 354, 223, 341, 225, 226, 259, 228, 314, 263, 231, 269, 233, 281, 235,
    283, 237, 238, 271, 273, 324, 328, 243, 244, 337, 246, 247, 345, 367, 250, 369, 252, 253,
    355, 729]

/-- codepages.hpp:89 `codePage[2]` (121 initialisers). -/
def codePage2 : List Nat := [
    128, 129, 130, 131, 132, 133, 134, 135, 136, 137, 138, 139, 140, 141, 142, 143, 144, 145,
    146, 147, 148, 149, 150, 151, 152, 153, 154, 155, 156, 157, 158, 159, 160, 294, 728, 163,
    164, 292, 167, 168, 304, 350, 286, 308, 173, 379, 176, 295, 178, 179, 180, 181, 293, 183,
    184, 305, 351, 287, 309, 189, 380, 192, 193, 194, 196, 266, 264, 199, 200, 201, 202, 203,
    204, 205, 206, 207, 209, 210, 211, 212, 288, 214, 215, 284, 217, 218, 219, 220, 364, 348,
    223, 224, 225, 226, 228, 267, 265, 231, 232, 233, 234, 235, 236, 237, 238, 239, 241, 242,
    243, 244, 289, 246, 247, 285, 249, 250, 251, 252, 365, 349, 729]

/-- codepages.hpp:90 `codePage[3]` (128 initialisers). -/
def codePage3 : List Nat := [
    128, 129, 130, 131, 132, 133, 134, 135, 136, 137, 138, 139, 140, 141, 142, 143, 144, 145,
    146, 147, 148, 149, 150, 151, 152, 153, 154, 155, 156, 157, 158, 159, 160, 260, 312, 342,
    164, 296, 315, 167, 168, 352, 274, 290, 358, 173, 381, 175, 176, 261, 731, 343, 180, 297,
    316, 711, 184, 353, 275, 291, 359, 330, 382, 331, 256, 193, 194, 195, 196, 197, 198, 302,
    268, 201, 280, 203, 278, 205, 206, 298, 272, 325, 332, 310, 212, 213, 214, 215, 216, 370,
    218, 219, 220, 360, 362, 223, 257, 225, 226, 227, 228, 229, 230, 303, 269, 233, 281, 235,
    279, 237, 238, 299, 273, 326, 333, 311, 244, 245, 246, 247, 248, 371, 250, 251, 252, 361,
    363, 729]

/-- codepages.hpp:91 `codePage[4]` (128 initialisers). -/
def codePage4 : List Nat := [
    128, 129, 130, 131, 132, 133, 134, 135, 136, 137, 138, 139, 140, 141, 142, 143, 144, 145,
    146, 147, 148, 149, 150, 151, 152, 153, 154, 155, 156, 157, 158, 159, 160, 161, 162, 163,
    164, 165, 166, 167, 168, 169, 170, 171, 172, 173, 174, 175, 176, 177, 178, 179, 180, 181,
    182, 183, 184, 185, 186, 187, 188, 189, 190, 191, 192, 193, 194, 195, 196, 197, 198, 199,
    200, 201, 202, 203, 204, 205, 206, 207, 286, 209, 210, 211, 212, 213, 214, 215, 216, 217,
    218, 219, 220, 304, 350, 223, 224, 225, 226, 227, 228, 229, 230, 231, 232, 233, 234, 235,
    236, 237, 238, 239, 287, 241, 242, 243, 244, 245, 246, 247, 248, 249, 250, 251, 252, 305,
    351, 255]

/-- codepages.hpp:92 `codePage[5]` (128 initialisers). -/
def codePage5 : List Nat := [
    128, 129, 130, 131, 132, 133, 134, 135, 136, 137, 138, 139, 140, 141, 142, 143, 144, 145,
    146, 147, 148, 149, 150, 151, 152, 153, 154, 155, 156, 157, 158, 159, 160, 260, 274, 290,
    298, 296, 310, 167, 315, 272, 352, 358, 381, 173, 362, 330, 176, 261, 275, 291, 299, 297,
    311, 183, 316, 273, 353, 359, 382, 8213, 363, 331, 256, 193, 194, 195, 196, 197, 198, 302,
    268, 201, 280, 203, 278, 205, 206, 207, 208, 325, 332, 211, 212, 213, 214, 360, 216, 370,
    218, 219, 220, 221, 222, 223, 257, 225, 226, 227, 228, 229, 230, 303, 269, 233, 281, 235,
    279, 237, 238, 239, 240, 326, 333, 243, 244, 245, 246, 361, 248, 371, 250, 251, 252, 253,
    254, 312]

/-- codepages.hpp:93 `codePage[6]` (128 initialisers). -/
def codePage6 : List Nat := [
    128, 129, 130, 131, 132, 133, 134, 135, 136, 137, 138, 139, 140, 141, 142, 143, 144, 145,
    146, 147, 148, 149, 150, 151, 152, 153, 154, 155, 156, 157, 158, 159, 160, 8221, 162, 163,
    164, 8222, 166, 167, 216, 169, 342, 171, 172, 173, 174, 198, 176, 177, 178, 179, 8220, 181,
    182, 183, 248, 185, 343, 187, 188, 189, 190, 230, 260, 302, 256, 262, 196, 197, 280, 274,
    268, 201, 377, 278, 290, 310, 298, 315, 352, 323, 325, 211, 332, 213, 214, 215, 370, 321,
    346, 362, 220, 379, 381, 223, 261, 303, 257, 263, 228, 229, 281, 275, 269, 233, 378, 279,
    291, 311, 299, 316, 353, 324, 326, 243, 333, 245, 246, 247, 371, 322, 347, 363, 252, 380,
    382, 8217]

/-- codepages.hpp:94 `codePage[7]` (128 initialisers). -/
def codePage7 : List Nat := [
    128, 129, 130, 131, 132, 133, 134, 135, 136, 137, 138, 139, 140, 141, 142, 143, 144, 145,
    146, 147, 148, 149, 150, 151, 152, 153, 154, 155, 156, 157, 158, 159, 160, 7682, 7683, 163,
    266, 267, 7690, 167, 7808, 169, 7810, 7691, 7922, 173, 174, 376, 7710, 7711, 288, 289,
    7744, 7745, 182, 7766, 7809, 7767, 7811, 7776, 7923, 7812, 7813, 7777, 192, 193, 194, 195,
    196, 197, 198, 199, 200, 201, 202, 203, 204, 205, 206, 207, 372, 209, 210, 211, 212, 213,
    214, 7786, 216, 217, 218, 219, 220, 221, 374, 223, 224, 225, 226, 227, 228, 229, 230, 231,
    232, 233, 234, 235, 236, 237, 238, 239, 373, 241, 242, 243, 244, 245, 246, 7787, 248, 249,
    250, 251, 252, 253, 375, 255]

/-- codepages.hpp:95 `codePage[8]` (128 initialisers). -/
def codePage8 : List Nat := [
    128, 129, 130, 131, 132, 133, 134, 135, 136, 137, 138, 139, 140, 141, 142, 143, 144, 145,
    146, 147, 148, 149, 150, 151, 152, 153, 154, 155, 156, 157, 158, 159, 160, 161, 162, 163,
    8364, 165, 352, 167, 353, 169, 170, 171, 172, 173, 174, 175, 176, 177, 178, 179, 381, 181,
    182, 183, 382, 185, 186, 187, 338, 339, 376, 191, 192, 193, 194, 195, 196, 197, 198, 199,
    200, 201, 202, 203, 204, 205, 206, 207, 208, 209, 210, 211, 212, 213, 214, 215, 216, 217,
    218, 219, 220, 221, 222, 223, 224, 225, 226, 227, 228, 229, 230, 231, 232, 233, 234, 235,
    236, 237, 238, 239, 240, 241, 242, 243, 244, 245, 246, 247, 248, 249, 250, 251, 252, 253,
    254, 255]

/-- codepages.hpp:86-96 `codePage`. -/
def codePage : Nat → List Nat
  | 0 => codePage0
  | 1 => codePage1
  | 2 => codePage2
  | 3 => codePage3
  | 4 => codePage4
  | 5 => codePage5
  | 6 => codePage6
  | 7 => codePage7
  | _ => codePage8

/-- codepages.hpp:98 `invcodePage[0]` (128 initialisers). -/
def invcodePage0 : List Nat := [
    128, 129, 130, 131, 132, 133, 134, 135, 136, 137, 138, 139, 140, 141, 142, 143, 144, 145,
    146, 147, 148, 149, 150, 151, 152, 153, 154, 155, 156, 157, 158, 159, 160, 161, 162, 163,
    164, 165, 166, 167, 168, 169, 170, 171, 172, 173, 174, 175, 176, 177, 178, 179, 180, 181,
    182, 183, 184, 185, 186, 187, 188, 189, 190, 191, 192, 193, 194, 195, 196, 197, 198, 199,
    200, 201, 202, 203, 204, 205, 206, 207, 208, 209, 210, 211, 212, 213, 214, 215, 216, 217,
    218, 219, 220, 221, 222, 223, 224, 225, 226, 227, 228, 229, 230, 231, 232, 233, 234, 235,
    236, 237, 238, 239, 240, 241, 242, 243, 244, 245, 246, 247, 248, 249, 250, 251, 252, 253,
    254, 255]

/-- codepages.hpp:99 `invcodePage[1]` (128 initialisers). -/
def invcodePage1 : List Nat := [
    128, 129, 130, 131, 132, 133, 134, 135, 136, 137, 138, 139, 140, 141, 142, 143, 144, 145,
    146, 147, 148, 149, 150, 151, 152, 153, 154, 155, 156, 157, 158, 159, 160, 0, 0, 0, 164, 0,
    0, 167, 168, 0, 0, 0, 0, 173, 0, 0, 176, 0, 0, 0, 180, 0, 0, 0, 184, 0, 0, 0, 0, 0, 0, 0,
    0, 193, 194, 0, 196, 0, 0, 199, 0, 201, 0, 203, 0, 205, 206, 0, 0, 0, 0, 211, 212, 0, 214,
    215, 0, 0, 218, 0, 220, 221, 0, 223, 0, 225, 226, 0, 228, 0, 0, 231, 0, 233, 0, 235, 0,
    237, 238, 0, 0, 0, 0, 243, 244, 0, 246, 247, 0, 0, 250, 0, 252, 253, 0, 0]

/-- codepages.hpp:100 `invcodePage[2]` (128 initialisers). -/
def invcodePage2 : List Nat := [
    128, 129, 130, 131, 132, 133, 134, 135, 136, 137, 138, 139, 140, 141, 142, 143, 144, 145,
    146, 147, 148, 149, 150, 151, 152, 153, 154, 155, 156, 157, 158, 159, 160, 0, 0, 163, 164,
    0, 0, 166, 167, 0, 0, 0, 0, 172, 0, 0, 174, 0, 176, 177, 178, 179, 0, 181, 182, 0, 0, 0, 0,
    187, 0, 0, 189, 190, 191, 0, 192, 0, 0, 195, 196, 197, 198, 199, 200, 201, 202, 203, 0,
    204, 205, 206, 207, 0, 209, 210, 0, 212, 213, 214, 215, 0, 0, 218, 219, 220, 221, 0, 222,
    0, 0, 225, 226, 227, 228, 229, 230, 231, 232, 233, 0, 234, 235, 236, 237, 0, 239, 240, 0,
    242, 243, 244, 245, 0, 0, 0]

/-- codepages.hpp:101 `invcodePage[3]` (128 initialisers). -/
def invcodePage3 : List Nat := [
    128, 129, 130, 131, 132, 133, 134, 135, 136, 137, 138, 139, 140, 141, 142, 143, 144, 145,
    146, 147, 148, 149, 150, 151, 152, 153, 154, 155, 156, 157, 158, 159, 160, 0, 0, 0, 164, 0,
    0, 167, 168, 0, 0, 0, 0, 173, 0, 175, 176, 0, 0, 0, 180, 0, 0, 0, 184, 0, 0, 0, 0, 0, 0, 0,
    0, 193, 194, 195, 196, 197, 198, 0, 0, 201, 0, 203, 0, 205, 206, 0, 0, 0, 0, 0, 212, 213,
    214, 215, 216, 0, 218, 219, 220, 0, 0, 223, 0, 225, 226, 227, 228, 229, 230, 0, 0, 233, 0,
    235, 0, 237, 238, 0, 0, 0, 0, 0, 244, 245, 246, 247, 248, 0, 250, 251, 252, 0, 0, 0]

/-- codepages.hpp:102 `invcodePage[4]` (128 initialisers). -/
def invcodePage4 : List Nat := [
    128, 129, 130, 131, 132, 133, 134, 135, 136, 137, 138, 139, 140, 141, 142, 143, 144, 145,
    146, 147, 148, 149, 150, 151, 152, 153, 154, 155, 156, 157, 158, 159, 160, 161, 162, 163,
    164, 165, 166, 167, 168, 169, 170, 171, 172, 173, 174, 175, 176, 177, 178, 179, 180, 181,
    182, 183, 184, 185, 186, 187, 188, 189, 190, 191, 192, 193, 194, 195, 196, 197, 198, 199,
    200, 201, 202, 203, 204, 205, 206, 207, 0, 209, 210, 211, 212, 213, 214, 215, 216, 217,
    218, 219, 220, 0, 0, 223, 224, 225, 226, 227, 228, 229, 230, 231, 232, 233, 234, 235, 236,
    237, 238, 239, 0, 241, 242, 243, 244, 245, 246, 247, 248, 249, 250, 251, 252, 0, 0, 255]

/-- codepages.hpp:103 `invcodePage[5]` (128 initialisers). -/
def invcodePage5 : List Nat := [
    128, 129, 130, 131, 132, 133, 134, 135, 136, 137, 138, 139, 140, 141, 142, 143, 144, 145,
    146, 147, 148, 149, 150, 151, 152, 153, 154, 155, 156, 157, 158, 159, 160, 0, 0, 0, 0, 0,
    0, 167, 0, 0, 0, 0, 0, 173, 0, 0, 176, 0, 0, 0, 0, 0, 0, 183, 0, 0, 0, 0, 0, 0, 0, 0, 0,
    193, 194, 195, 196, 197, 198, 0, 0, 201, 0, 203, 0, 205, 206, 207, 208, 0, 0, 211, 212,
    213, 214, 0, 216, 0, 218, 219, 220, 221, 222, 223, 0, 225, 226, 227, 228, 229, 230, 0, 0,
    233, 0, 235, 0, 237, 238, 239, 240, 0, 0, 243, 244, 245, 246, 0, 248, 0, 250, 251, 252,
    253, 254, 0]

/-- codepages.hpp:104 `invcodePage[6]` (128 initialisers). -/
def invcodePage6 : List Nat := [
    128, 129, 130, 131, 132, 133, 134, 135, 136, 137, 138, 139, 140, 141, 142, 143, 144, 145,
    146, 147, 148, 149, 150, 151, 152, 153, 154, 155, 156, 157, 158, 159, 160, 0, 162, 163,
    164, 0, 166, 167, 0, 169, 0, 171, 172, 173, 174, 0, 176, 177, 178, 179, 0, 181, 182, 183,
    0, 185, 0, 187, 188, 189, 190, 0, 0, 0, 0, 0, 196, 197, 175, 0, 0, 201, 0, 0, 0, 0, 0, 0,
    0, 0, 0, 211, 0, 213, 214, 215, 168, 0, 0, 0, 220, 0, 0, 223, 0, 0, 0, 0, 228, 229, 191, 0,
    0, 233, 0, 0, 0, 0, 0, 0, 0, 0, 0, 243, 0, 245, 246, 247, 184, 0, 0, 0, 252, 0, 0, 0]

/-- codepages.hpp:105 `invcodePage[7]` (128 initialisers). -/
def invcodePage7 : List Nat := [
    128, 129, 130, 131, 132, 133, 134, 135, 136, 137, 138, 139, 140, 141, 142, 143, 144, 145,
    146, 147, 148, 149, 150, 151, 152, 153, 154, 155, 156, 157, 158, 159, 160, 0, 0, 163, 0, 0,
    0, 167, 0, 169, 0, 0, 0, 173, 174, 0, 0, 0, 0, 0, 0, 0, 182, 0, 0, 0, 0, 0, 0, 0, 0, 0,
    192, 193, 194, 195, 196, 197, 198, 199, 200, 201, 202, 203, 204, 205, 206, 207, 0, 209,
    210, 211, 212, 213, 214, 0, 216, 217, 218, 219, 220, 221, 0, 223, 224, 225, 226, 227, 228,
    229, 230, 231, 232, 233, 234, 235, 236, 237, 238, 239, 0, 241, 242, 243, 244, 245, 246, 0,
    248, 249, 250, 251, 252, 253, 0, 255]

/-- codepages.hpp:106 `invcodePage[8]` (128 initialisers). -/
def invcodePage8 : List Nat := [
    128, 129, 130, 131, 132, 133, 134, 135, 136, 137, 138, 139, 140, 141, 142, 143, 144, 145,
    146, 147, 148, 149, 150, 151, 152, 153, 154, 155, 156, 157, 158, 159, 160, 161, 162, 163,
    0, 165, 0, 167, 0, 169, 170, 171, 172, 173, 174, 175, 176, 177, 178, 179, 0, 181, 182, 183,
    0, 185, 186, 187, 0, 0, 0, 191, 192, 193, 194, 195, 196, 197, 198, 199, 200, 201, 202, 203,
    204, 205, 206, 207, 208, 209, 210, 211, 212, 213, 214, 215, 216, 217, 218, 219, 220, 221,
    222, 223, 224, 225, 226, 227, 228, 229, 230, 231, 232, 233, 234, 235, 236, 237, 238, 239,
    240, 241, 242, 243, 244, 245, 246, 247, 248, 249, 250, 251, 252, 253, 254, 255]

/-- codepages.hpp:97-107 `invcodePage`. -/
def invcodePage : Nat → List Nat
  | 0 => invcodePage0
  | 1 => invcodePage1
  | 2 => invcodePage2
  | 3 => invcodePage3
  | 4 => invcodePage4
  | 5 => invcodePage5
  | 6 => invcodePage6
  | 7 => invcodePage7
  | _ => invcodePage8

/-- codepages.hpp:41 `ovlar[0]` up to the terminating zero key. -/
def ovlar0 : List (Nat × Nat) := [
    ]

/-- codepages.hpp:42 `ovlar[1]` up to the terminating zero key. -/
def ovlar1 : List (Nat × Nat) := [
    (260, 161), (728, 162), (321, 163), (317, 165), (346, 166), (352, 169), (350, 170),
    (356, 171), (377, 172), (381, 174), (379, 175), (261, 177), (731, 178), (322, 179),
    (318, 181), (347, 182), (711, 183), (353, 185), (351, 186), (357, 187), (378, 188),
    (733, 189), (382, 190), (380, 191), (340, 192), (258, 195), (313, 197), (262, 198),
    (268, 200), (280, 202), (282, 204), (270, 207), (272, 208), (323, 209), (327, 210),
    (336, 213), (344, 216), (366, 217), (368, 219), (354, 222), (341, 224), (259, 227),
    (314, 229), (263, 230), (269, 232), (281, 234), (283, 236), (271, 239), (273, 240),
    (324, 241), (328, 242), (337, 245), (345, 248), (367, 249), (369, 251), (355, 254),
    (729, 255)]

/-- codepages.hpp:43 `ovlar[2]` up to the terminating zero key. -/
def ovlar2 : List (Nat × Nat) := [
    (294, 161), (728, 162), (292, 165), (304, 168), (350, 169), (286, 170), (308, 171),
    (379, 173), (295, 175), (293, 180), (305, 183), (351, 184), (287, 185), (309, 186),
    (380, 188), (266, 193), (264, 194), (288, 208), (284, 211), (364, 216), (348, 217),
    (267, 223), (265, 224), (289, 238), (285, 241), (365, 246), (349, 247), (729, 248)]

/-- codepages.hpp:44 `ovlar[3]` up to the terminating zero key. -/
def ovlar3 : List (Nat × Nat) := [
    (260, 161), (312, 162), (342, 163), (296, 165), (315, 166), (352, 169), (274, 170),
    (290, 171), (358, 172), (381, 174), (261, 177), (731, 178), (343, 179), (297, 181),
    (316, 182), (711, 183), (353, 185), (275, 186), (291, 187), (359, 188), (330, 189),
    (382, 190), (331, 191), (256, 192), (302, 199), (268, 200), (280, 202), (278, 204),
    (298, 207), (272, 208), (325, 209), (332, 210), (310, 211), (370, 217), (360, 221),
    (362, 222), (257, 224), (303, 231), (269, 232), (281, 234), (279, 236), (299, 239),
    (273, 240), (326, 241), (333, 242), (311, 243), (371, 249), (361, 253), (363, 254),
    (729, 255)]

/-- codepages.hpp:45 `ovlar[4]` up to the terminating zero key. -/
def ovlar4 : List (Nat × Nat) := [
    (286, 208), (304, 221), (350, 222), (287, 240), (305, 253), (351, 254)]

/-- codepages.hpp:46 `ovlar[5]` up to the terminating zero key. -/
def ovlar5 : List (Nat × Nat) := [
    (260, 161), (274, 162), (290, 163), (298, 164), (296, 165), (310, 166), (315, 168),
    (272, 169), (352, 170), (358, 171), (381, 172), (362, 174), (330, 175), (261, 177),
    (275, 178), (291, 179), (299, 180), (297, 181), (311, 182), (316, 184), (273, 185),
    (353, 186), (359, 187), (382, 188), (8213, 189), (363, 190), (331, 191), (256, 192),
    (302, 199), (268, 200), (280, 202), (278, 204), (325, 209), (332, 210), (360, 215),
    (370, 217), (257, 224), (303, 231), (269, 232), (281, 234), (279, 236), (326, 241),
    (333, 242), (361, 247), (371, 249), (312, 255)]

/-- codepages.hpp:47 `ovlar[6]` up to the terminating zero key. -/
def ovlar6 : List (Nat × Nat) := [
    (8221, 161), (8222, 165), (342, 170), (8220, 180), (343, 186), (260, 192), (302, 193),
    (256, 194), (262, 195), (280, 198), (274, 199), (268, 200), (377, 202), (278, 203),
    (290, 204), (310, 205), (298, 206), (315, 207), (352, 208), (323, 209), (325, 210),
    (332, 212), (370, 216), (321, 217), (346, 218), (362, 219), (379, 221), (381, 222),
    (261, 224), (303, 225), (257, 226), (263, 227), (281, 230), (275, 231), (269, 232),
    (378, 234), (279, 235), (291, 236), (311, 237), (299, 238), (316, 239), (353, 240),
    (324, 241), (326, 242), (333, 244), (371, 248), (322, 249), (347, 250), (363, 251),
    (380, 253), (382, 254), (8217, 255)]

/-- codepages.hpp:48 `ovlar[7]` up to the terminating zero key. -/
def ovlar7 : List (Nat × Nat) := [
    (7682, 161), (7683, 162), (266, 164), (267, 165), (7690, 166), (7808, 168), (7810, 170),
    (7691, 171), (7922, 172), (376, 175), (7710, 176), (7711, 177), (288, 178), (289, 179),
    (7744, 180), (7745, 181), (7766, 183), (7809, 184), (7767, 185), (7811, 186), (7776, 187),
    (7923, 188), (7812, 189), (7813, 190), (7777, 191), (372, 208), (7786, 215), (374, 222),
    (373, 240), (7787, 247), (375, 254)]

/-- codepages.hpp:49 `ovlar[8]` up to the terminating zero key. -/
def ovlar8 : List (Nat × Nat) := [
    (8364, 164), (352, 166), (353, 168), (381, 180), (382, 184), (338, 188), (339, 189),
    (376, 190)]

/-- codepages.hpp:39-59 the overlay maps. -/
def ovlar : Nat → List (Nat × Nat)
  | 0 => ovlar0
  | 1 => ovlar1
  | 2 => ovlar2
  | 3 => ovlar3
  | 4 => ovlar4
  | 5 => ovlar5
  | 6 => ovlar6
  | 7 => ovlar7
  | _ => ovlar8

/-- codepages.hpp:79,110 constructor check of the code page index (1..9). -/
def isoLatinCtor (idx : Nat) : Res Unit :=
  if 9 < idx ∨ idx = 0 then .stop (.throw .CodePageIndexNotSupported) else .ok ()

/-- codepages.hpp:119-123 `ucharcode`, `idx` is the code page index 1..9, `ch`
the byte. -/
def ucharcode (idx : Nat) (ch : Byte) : UChar :=
  if ch < 128 then ch else (codePage (idx - 1))[ch - 128]?.getD 0

/-- codepages.hpp:128-141 `invcode`. The `char` result is given as unsigned byte.
The guard at line 135 is `1<<sizeof(unsigned short)`, that is `1<<2`. -/
def invcode (idx : Nat) (ch : UChar) : Byte :=
  if ch ≤ 128 then ch
  else
    let rt := if ch ≤ 255 then (invcodePage (idx - 1))[ch - 128]?.getD 0 % 256 else 0
    if rt = 0 then
      if 1 <<< 2 ≤ ch then 0
      else match (ovlar (idx - 1)).find? (fun e => e.1 = ch % 2 ^ 16) with
        | none => 0
        | some e => e.2
    else rt

end TW
